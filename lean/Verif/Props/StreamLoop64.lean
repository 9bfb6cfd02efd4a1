import Verif.Model.StreamLoop64
import Verif.Props.StreamOrder
/-!
# C127: jumping to a position from 0 on never crashes the server

False for one position: the largest integer, 9223372036854775807, if it is stored just when a song ends.

* `C127_no_crash_partial`: no schedule whose jumps are to positions from 0 to 9223372036854775806 crashes, whatever else happens.
* `C127_exact`: within that range everything is as with unbounded positions (`StreamLoop`), negative positions included, so what is
  proved of `StreamLoop` holds for the 64 bit program.
* `C127_last_position`: in every state in which a song has ended and the position is about to be advanced, a jump to the largest
  integer crashes the server as soon as the next song is chosen, if the number of songs does not divide 2^63 (is no power of two),
  and goes to the first song otherwise.
* `C127_refuted`: such a state is reached.
-/
namespace MS.StreamLoop64
open MS.StreamLoop

variable {α : Type}

/-- Jumps below the largest integer, lists that fit into memory. -/
def Small : Act → Prop
  | .jumpWrite p => -2 ^ 63 ≤ p ∧ p < 2 ^ 63 - 1
  | .edit l => l.length < 2 ^ 63
  | _ => True

/-- Invariant. -/
def Range (s : St α) : Prop :=
  s.songs.length < 2 ^ 63 ∧ -2 ^ 63 ≤ s.position ∧ s.position < 2 ^ 63 ∧
  match s.pc with
  | .top => True
  | .brk => True
  | .crashed => True
  | .store pos _ => -2 ^ 63 ≤ pos ∧ pos < 2 ^ 63 - 1
  | .incW _ v => -2 ^ 63 ≤ v ∧ v < 2 ^ 63 - 1
  | _ => s.position < 2 ^ 63 - 1

theorem wrap_id {x : Int} (h1 : -2 ^ 63 ≤ x) (h2 : x < 2 ^ 63) : wrap64 x = x := by
  unfold wrap64
  rw [Int.bmod_eq_of_le] <;> simp <;> omega

theorem tmod_range (p : Int) (n : Nat) (h : n ≠ 0) (hn : n < 2 ^ 63) :
    -2 ^ 63 ≤ p.tmod n ∧ p.tmod n < 2 ^ 63 - 1 := by
  have h1 : p.tmod n < n := Int.tmod_lt_of_pos p (by omega)
  have h2 : -(n : Int) < p.tmod n := Int.lt_tmod_of_pos p (by omega)
  omega

theorem range_init (songs : List String) (h : songs.length < 2 ^ 63) : Range (StreamLoop.init (α := α) songs) := by
  refine ⟨h, ?_, ?_, trivial⟩ <;> simp [StreamLoop.init]

theorem loop_range {c : Cfg α} {s s' : St α} (hr : Range s) (e : StreamLoop.loopStep c s = some s') :
    loopStep c s = some s' ∧ Range s' := by
  obtain ⟨songs, position, tokens, inflight, playing, playingLast, current, pc, out, news, pauses, blocks, cuts⟩ := s
  obtain ⟨h1, h2, h3, h4⟩ := hr
  cases pc <;> simp only at h1 h2 h3 h4 <;> simp only [loopStep, e, true_and] <;> simp only [StreamLoop.loopStep] at e
  case top =>
    split at e
    · cases e; exact ⟨h1, h2, h3, trivial⟩
    · split at e <;> cases e
      · exact ⟨h1, h2, h3, tmod_range _ _ (by assumption) h1⟩
      · exact ⟨h1, h2, h3, trivial⟩
  case store pos song =>
    split at e <;> cases e
    · exact ⟨h1, h4.1, by simp only; omega, trivial⟩
    · exact ⟨h1, h4.1, by simp only; omega, h4.2⟩
  case opening song => split at e <;> cases e <;> exact ⟨h1, h2, h3, h4⟩
  case h1 rem => split at e <;> cases e <;> exact ⟨h1, h2, h3, h4⟩
  case body rem => split at e <;> cases e <;> exact ⟨h1, h2, h3, h4⟩
  case chk r n ok =>
    split at e
    · cases e; exact ⟨h1, h2, h3, trivial⟩
    · split at e <;> cases e <;> exact ⟨h1, h2, h3, h4⟩
  case incR skip => cases e; exact ⟨h1, h2, h3, h2, h4⟩
  case incW skip v =>
    cases e
    rw [wrap_id (by omega) (by omega)]
    refine ⟨rfl, h1, by simp only; omega, by simp only; omega, ?_⟩
    cases skip <;> trivial
  case brk => cases e; exact ⟨h1, h2, h3, trivial⟩
  case crashed => cases e
  all_goals cases e; exact ⟨h1, h2, h3, h4⟩

theorem step_range {c : Cfg α} {s s' : St α} {a : Act} (hr : Range s) (ha : Small a) (e : StreamLoop.step c s a = some s') :
    step c s a = some s' ∧ Range s' := by
  by_cases hl : a = .loop
  · subst hl
    have e' : StreamLoop.loopStep c s = some s' := by
      unfold StreamLoop.step at e
      split at e
      · cases e
      · exact e
    exact loop_range hr e'
  · refine ⟨?_, ?_⟩
    · cases a with
      | loop => exact absurd rfl hl
      | jumpWrite p =>
        simp only [Small] at ha
        simp only [step]
        rw [if_pos (by omega)]
        exact e
      | _ => exact e
    · obtain ⟨h1, h2, h3, h4⟩ := hr
      unfold StreamLoop.step at e
      split at e
      · cases e
      · cases a <;> simp only at e
        case loop => exact absurd rfl hl
        case jumpWrite p =>
          cases e
          simp only [Small] at ha
          refine ⟨h1, ha.1, by simp only; omega, ?_⟩
          simp only
          cases hpc : s.pc <;> rw [hpc] at h4 <;> simp only at h4 ⊢ <;> first | trivial | exact h4 | exact ha.2
        case jumpToken => split at e <;> cases e; exact ⟨h1, h2, h3, h4⟩
        case setPlaying b => cases e; exact ⟨h1, h2, h3, h4⟩
        case edit l => cases e; exact ⟨ha, h2, h3, h4⟩

theorem step_conv {c : Cfg α} {s s' : St α} {a : Act} (e : step c s a = some s') : ∃ t, StreamLoop.step c s a = some t := by
  cases hs : StreamLoop.step c s a with
  | some t => exact ⟨t, rfl⟩
  | none =>
    exfalso
    cases a with
    | loop =>
      simp only [step, loopStep] at e
      unfold StreamLoop.step at hs
      split at e
      · rename_i hpc; simp [hpc, StreamLoop.loopStep] at hs
      · split at hs
        · rename_i hpc; simp [StreamLoop.loopStep, hpc] at e
        · simp only at hs; rw [hs] at e; cases e
    | jumpWrite p => simp only [step, hs] at e; split at e <;> cases e
    | _ => simp only [step, hs] at e; cases e

/-- C127: within the range, the 64 bit program does exactly what the one with unbounded positions does, step for step. -/
theorem C127_exact (c : Cfg α) (songs : List String) (hs : songs.length < 2 ^ 63) (as : List Act) (ha : ∀ a ∈ as, Small a) :
    run c (StreamLoop.init songs) as = StreamLoop.run c (StreamLoop.init songs) as := by
  have gen : ∀ (as : List Act) (s : St α), (∀ a ∈ as, Small a) → Range s → run c s as = StreamLoop.run c s as := by
    intro as
    induction as with
    | nil => intros; rfl
    | cons a as ih =>
      intro s ha hr
      simp only [run, StreamLoop.run]
      cases h : StreamLoop.step c s a with
      | some t =>
        obtain ⟨k1, k2⟩ := step_range hr (ha a (by simp)) h
        rw [k1]
        exact ih t (fun b hb => ha b (by simp [hb])) k2
      | none =>
        cases h' : step c s a with
        | none => rfl
        | some t => obtain ⟨u, hu⟩ := step_conv h'; rw [h] at hu; cases hu
  exact gen as _ ha (range_init songs hs)

/-- C127: no schedule whose jumps are to positions from 0 to 2^63 - 2 crashes the server. Missing: the position 2^63 - 1, for which
it is false. -/
theorem C127_no_crash_partial (c : Cfg α) (songs : List String) (hs : songs.length < 2 ^ 63) (as : List Act)
    (hj : ∀ p, .jumpWrite p ∈ as → 0 ≤ p ∧ p < 9223372036854775807) (hl : ∀ l, .edit l ∈ as → l.length < 2 ^ 63) (s : St α)
    (h : run c (StreamLoop.init songs) as = some s) : s.pc ≠ .crashed := by
  have hsm : ∀ a ∈ as, Small a := by
    intro a ha
    cases a with
    | jumpWrite p => have := hj p ha; simp only [Small]; omega
    | edit l => exact hl l ha
    | _ => trivial
  rw [C127_exact c songs hs as hsm] at h
  have := C12_nonNeg_reachable c songs as s (fun p hp => (hj p hp).1) h
  intro hc
  have h2 := this.2
  rw [hc] at h2
  exact h2

/-- C127: a song is over, `position` is about to be advanced; a session stores the largest integer. When the next song is chosen the
server crashes, unless the number of songs divides 2^63; then the first song is chosen. -/
theorem C127_last_position (c : Cfg α) (s : St α) (hpc : s.pc = .incR false) (hne : s.songs ≠ []) (hlen : s.songs.length < 2 ^ 63) :
    ∃ s', run c s [.jumpWrite 9223372036854775807, .loop, .loop, .loop, .loop] = some s' ∧
      (s.songs.length ∣ 2 ^ 63 → ∃ x, s.songs[0]? = some x ∧ s'.pc = .store 0 x) ∧
      (¬ s.songs.length ∣ 2 ^ 63 → s'.pc = .crashed) := by
  obtain ⟨songs, position, tokens, inflight, playing, playingLast, current, pc, out, news, pauses, blocks, cuts⟩ := s
  simp only at hpc hne hlen
  subst hpc
  have hw : wrap64 9223372036854775808 = -9223372036854775808 := by decide +kernel
  have hl : songs.length ≠ 0 := by simpa using hne
  have hneg : Int.tmod (-9223372036854775808) songs.length = -((2 ^ 63 % songs.length : Nat) : Int) := by
    have h1 : (-9223372036854775808 : Int) = -((2 ^ 63 : Nat) : Int) := by decide
    rw [h1, Int.neg_tmod]
    rfl
  by_cases hd : songs.length ∣ 2 ^ 63
  · have hz : Int.tmod (-9223372036854775808) songs.length = 0 := by rw [hneg, Nat.mod_eq_zero_of_dvd hd]; rfl
    cases songs with
    | nil => exact absurd rfl hne
    | cons x xs =>
      refine ⟨{ songs := x :: xs, position := -9223372036854775808, tokens, inflight := inflight + 1, playing, playingLast, current,
                pc := .store 0 x, out := out ++ List.replicate c.brk none, news, pauses, blocks, cuts }, ?_,
              fun _ => ⟨x, rfl, rfl⟩, fun h => absurd hd h⟩
      simp [run, step, StreamLoop.step, loopStep, StreamLoop.loopStep, hw]
      simp at hz
      simp [hz, Playlist.goGet]
  · have hz : Int.tmod (-9223372036854775808) songs.length < 0 := by
      rw [hneg]
      have : 0 < 2 ^ 63 % songs.length := Nat.pos_of_ne_zero fun h => hd (Nat.dvd_of_mod_eq_zero h)
      omega
    refine ⟨{ songs, position := -9223372036854775808, tokens, inflight := inflight + 1, playing, playingLast, current,
              pc := .crashed, out := out ++ List.replicate c.brk none, news, pauses, blocks, cuts }, ?_, fun h => absurd h hd, fun _ => rfl⟩
    have hz' : 0 < Int.tmod 9223372036854775808 songs.length := by
      rw [Int.neg_tmod] at hz; omega
    simp [run, step, StreamLoop.step, loopStep, StreamLoop.loopStep, hw, hl, Playlist.goGet, hz']

/-- Three songs of one sample each. -/
def exCfg : Cfg Unit := { dec := fun _ => some [()], brk := 1 }

/-- C127 is false: with three songs, after the first one, a jump to 9223372036854775807 crashes. -/
theorem C127_refuted :
    ∃ s, run exCfg (StreamLoop.init ["a", "b", "c"]) (.setPlaying true :: List.replicate 6 .loop ++
      [.jumpWrite 9223372036854775807, .loop, .loop, .loop, .loop]) = some s ∧ s.pc = .crashed := by
  refine ⟨_, rfl, ?_⟩
  decide +kernel

/-- The same jump a moment later does no harm: the range is not too narrow because of something else. -/
theorem ex_harmless : ∃ s, run exCfg (StreamLoop.init ["a", "b", "c"]) (.setPlaying true :: List.replicate 7 .loop ++
      [.jumpWrite 9223372036854775807, .loop, .loop, .loop]) = some s ∧ s.pc ≠ .crashed := by
  refine ⟨_, rfl, ?_⟩
  decide +kernel

/-- Schedules as in `C127_no_crash_partial`. -/
theorem ex_small : ∃ s, run exCfg (StreamLoop.init ["a", "b", "c"]) (.setPlaying true :: List.replicate 6 .loop ++
      [.jumpWrite 9223372036854775806, .loop, .loop, .loop, .loop, .edit ["d"], .loop]) = some s ∧ s.position = 1 := by
  refine ⟨_, rfl, ?_⟩
  decide +kernel

end MS.StreamLoop64
