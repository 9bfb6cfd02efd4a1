import Verif.Lemmas.StreamLoop2
/-!
# Properties C06, C07, C12: song order, jumps, progress of the streaming loop
-/
namespace MS.StreamLoop
open MS.Spec

variable {α : Type}

/-- Steps of the loop and pausing/resuming: no jumps, no edits. -/
def calm : Act → Prop
  | .loop => True
  | .setPlaying _ => True
  | _ => False

theorem tmod_nat (p : Nat) (n : Nat) : Int.tmod (p : Int) (n : Int) = ((p % n : Nat) : Int) := by
  rw [Int.ofNat_tmod]

theorem goGet_nat (l : List String) (p : Nat) (hl : l ≠ []) :
    ∃ song, l[p % l.length]? = some song ∧ Playlist.goGet l ((p % l.length : Nat) : Int) = .ok song := by
  have hlt : p % l.length < l.length := Nat.mod_lt _ (List.length_pos_iff.2 hl)
  refine ⟨l[p % l.length], by simp [hlt], ?_⟩
  unfold Playlist.goGet
  rw [if_neg (by omega), Int.toNat_natCast, List.getElem?_eq_getElem hlt]

/-! ### C06 -/

/-- Invariant: `m` songs announced since the start, next position `p0 + m`. -/
def OrdInv (songs : List String) (p0 : Nat) (old : List (Nat × String × Nat)) (s : St α) : Prop :=
  s.songs = songs ∧ s.tokens = 0 ∧ ∃ new, s.news = old ++ new ∧
  (∀ (i : Nat) e, new[i]? = some e → songs[(p0 + i) % songs.length]? = some e.2.1) ∧
  match s.pc with
  | .top => ∃ p : Nat, s.position = p ∧ p % songs.length = (p0 + new.length) % songs.length
  | .brk => ∃ p : Nat, s.position = p ∧ p % songs.length = (p0 + new.length) % songs.length
  | .store pos song => pos = (((p0 + new.length) % songs.length : Nat) : Int) ∧
      songs[(p0 + new.length) % songs.length]? = some song
  | .opening song => s.position = (((p0 + new.length) % songs.length : Nat) : Int) ∧
      songs[(p0 + new.length) % songs.length]? = some song
  | .incR true => False
  | .incW true _ => False
  | .crashed => False
  | .incW false v => ∃ p : Nat, v = p ∧ (p + 1) % songs.length = (p0 + new.length) % songs.length
  | _ => ∃ p : Nat, s.position = p ∧ (p + 1) % songs.length = (p0 + new.length) % songs.length

theorem ordInv_step {c : Cfg α} {songs : List String} {p0 : Nat} {old : List (Nat × String × Nat)}
    (hne : songs ≠ []) (hplay : ∀ n ∈ songs, n ≠ "" ∧ (c.dec n).isSome) {s s' : St α} {a : Act} (ha : calm a)
    (hi : OrdInv songs p0 old s) (h : step c s a = some s') : OrdInv songs p0 old s' := by
  rcases step_cases h with ⟨_, h⟩ | ⟨p, rfl, _⟩ | ⟨rfl, _⟩ | ⟨b, _, rfl⟩ | ⟨l, rfl, _⟩
  rotate_left
  · exact absurd ha id
  · exact absurd ha id
  · exact hi
  · exact absurd ha id
  obtain ⟨songs', position, tokens, inflight, playing, playingLast, current, pc, out, news, pauses, blocks, cuts⟩ := s
  obtain ⟨h1, h2, new, h3, h4, h5⟩ := hi
  simp only at h1 h2 h3 h5
  subst h1 h2
  have hlen : 0 < songs'.length := List.length_pos_iff.2 hne
  cases pc with
  | top =>
    obtain ⟨p, hp, hmod⟩ := h5
    simp only [loopStep] at h
    rw [if_neg (by omega), hp, tmod_nat] at h
    obtain ⟨song, hs1, hs2⟩ := goGet_nat songs' p hne
    rw [hs2] at h
    injection h with h; subst h
    refine ⟨rfl, rfl, new, h3, h4, ?_, ?_⟩
    · rw [hmod]
    · rw [← hmod]; exact hs1
  | store pos song =>
    obtain ⟨hp, hs⟩ := h5
    have hmem := List.mem_of_getElem? hs
    simp only [loopStep] at h
    rw [if_neg (hplay song hmem).1] at h
    injection h with h; subst h
    exact ⟨rfl, rfl, new, h3, h4, hp, hs⟩
  | opening song =>
    obtain ⟨hp, hs⟩ := h5
    have hmem := List.mem_of_getElem? hs
    simp only [loopStep] at h
    split at h <;> rename_i hdec
    · have := (hplay song hmem).2; simp [hdec] at this
    · injection h with h; subst h
      refine ⟨rfl, rfl, new ++ [(out.length, song, _)], by rw [h3, List.append_assoc], ?_, _, hp, ?_⟩
      · intro i e hie
        rw [List.getElem?_append] at hie
        split at hie
        · exact h4 i e hie
        · rename_i hlt
          have hz : i = new.length := by
            rcases Nat.lt_or_ge (i - new.length) 1 with hx | hx
            · omega
            · rw [List.getElem?_eq_none (by simpa using hx)] at hie; simp at hie
          subst hz
          simp at hie
          subst hie
          exact hs
      · simp only [List.length_append, List.length_singleton]
        rw [Nat.mod_add_mod]; congr 1
  | h1 rem =>
    simp only [loopStep] at h
    split at h <;> injection h with h <;> subst h <;> exact ⟨rfl, rfl, new, h3, h4, h5⟩
  | h2 rem => simp only [loopStep] at h; injection h with h; subst h; exact ⟨rfl, rfl, new, h3, h4, h5⟩
  | h3 rem => simp only [loopStep] at h; injection h with h; subst h; exact ⟨rfl, rfl, new, h3, h4, h5⟩
  | body rem =>
    simp only [loopStep] at h
    split at h <;> injection h with h <;> subst h <;> exact ⟨rfl, rfl, new, h3, h4, h5⟩
  | chk rem n ok =>
    simp only [loopStep] at h
    rw [if_neg (by omega)] at h
    split at h <;> injection h with h <;> subst h <;> exact ⟨rfl, rfl, new, h3, h4, h5⟩
  | incR skip =>
    cases skip
    · simp only [loopStep] at h
      injection h with h; subst h
      exact ⟨rfl, rfl, new, h3, h4, h5⟩
    · exact absurd h5 id
  | incW skip v =>
    cases skip
    · simp only [loopStep] at h
      injection h with h; subst h
      obtain ⟨p, rfl, hp⟩ := h5
      exact ⟨rfl, rfl, new, h3, h4, p + 1, by simp, hp⟩
    · exact absurd h5 id
  | brk =>
    simp only [loopStep] at h
    injection h with h; subst h
    exact ⟨rfl, rfl, new, h3, h4, h5⟩
  | crashed => simp [loopStep] at h

/-- C06. From any moment `s0` at which the loop is about to pick a song, with a non-empty playlist of playable songs,
no pending jump and position `p0`, as long as nobody jumps or edits (pausing is allowed), the songs announced from
then on are those at positions p0, p0+1, p0+2, ... modulo the playlist length, for any number of songs. -/
theorem C06_plays_in_order (c : Cfg α) (s0 s : St α) (p0 : Nat) (acts : List Act)
    (htop : s0.pc = .top) (hne : s0.songs ≠ []) (hplay : ∀ n ∈ s0.songs, n ≠ "" ∧ (c.dec n).isSome)
    (htok : s0.tokens = 0) (hpos : s0.position = p0) (hcalm : ∀ a ∈ acts, calm a)
    (h : run c s0 acts = some s) :
    ∃ new, s.news = s0.news ++ new ∧
      ∀ (i : Nat) e, new[i]? = some e → s0.songs[(p0 + i) % s0.songs.length]? = some e.2.1 := by
  have hi : OrdInv s0.songs p0 s0.news s :=
    run_induct (ok := calm) (P := OrdInv s0.songs p0 s0.news)
      (fun _ _ _ ha hi hs => ordInv_step hne hplay ha hi hs) hcalm
      ⟨rfl, htok, [], by simp, by simp, by rw [htop]; exact ⟨p0, hpos, by simp⟩⟩ h
  obtain ⟨_, _, new, h1, h2, _⟩ := hi
  exact ⟨new, h1, h2⟩

/-- C06 also says the loop keeps going: under the same conditions it never crashes (it can always take a step). -/
theorem C06_never_stuck (c : Cfg α) (s0 s : St α) (p0 : Nat) (acts : List Act)
    (htop : s0.pc = .top) (hne : s0.songs ≠ []) (hplay : ∀ n ∈ s0.songs, n ≠ "" ∧ (c.dec n).isSome)
    (htok : s0.tokens = 0) (hpos : s0.position = p0) (hcalm : ∀ a ∈ acts, calm a)
    (h : run c s0 acts = some s) : s.pc ≠ .crashed ∧ (step c s .loop).isSome := by
  have hi : OrdInv s0.songs p0 s0.news s :=
    run_induct (ok := calm) (P := OrdInv s0.songs p0 s0.news)
      (fun _ _ _ ha hi hs => ordInv_step hne hplay ha hi hs) hcalm
      ⟨rfl, htok, [], by simp, by simp, by rw [htop]; exact ⟨p0, hpos, by simp⟩⟩ h
  obtain ⟨_, _, new, h1, h2, h3⟩ := hi
  have hnc : s.pc ≠ .crashed := by
    intro hc; rw [hc] at h3; exact h3
  refine ⟨hnc, ?_⟩
  unfold step loopStep
  grind

/-! ### C07 -/

/-- Invariant after a complete `SetPos(p)`. -/
def JumpInv (songs : List String) (p : Nat) (target : String) (old : List (Nat × String × Nat)) (s : St α) : Prop :=
  s.songs = songs ∧
  ((∃ k len rest, s.news = old ++ (k, target, len) :: rest) ∨
   (s.news = old ∧
    match s.pc with
    | .h1 _ => s.position = p ∧ 0 < s.tokens
    | .h2 _ => s.position = p ∧ 0 < s.tokens
    | .h3 _ => s.position = p ∧ 0 < s.tokens
    | .body _ => s.position = p ∧ 0 < s.tokens
    | .chk _ _ _ => s.position = p ∧ 0 < s.tokens
    | .top => s.position = p
    | .brk => s.position = p
    | .store _ song => song = target
    | .opening song => song = target
    | _ => False))

theorem news_mono_loop {c : Cfg α} {s s' : St α} (h : loopStep c s = some s') : ∃ new, s'.news = s.news ++ new := by
  unfold loopStep at h
  have : s'.news = s.news ∨ ∃ e, s'.news = s.news ++ [e] := by grind
  rcases this with h | ⟨e, h⟩
  · exact ⟨[], by simp [h]⟩
  · exact ⟨[e], h⟩

theorem songs_loop {c : Cfg α} {s s' : St α} (h : loopStep c s = some s') : s'.songs = s.songs := by
  unfold loopStep at h
  grind

theorem jumpInv_step {c : Cfg α} {songs : List String} {p : Nat} {target : String}
    {old : List (Nat × String × Nat)} (hne : songs ≠ []) (ht : songs[p % songs.length]? = some target)
    (hplay : target ≠ "" ∧ (c.dec target).isSome) {s s' : St α} {a : Act} (ha : calm a)
    (hi : JumpInv songs p target old s) (h : step c s a = some s') : JumpInv songs p target old s' := by
  rcases step_cases h with ⟨_, h⟩ | ⟨p, rfl, _⟩ | ⟨rfl, _⟩ | ⟨b, _, rfl⟩ | ⟨l, rfl, _⟩
  rotate_left
  · exact absurd ha id
  · exact absurd ha id
  · exact hi
  · exact absurd ha id
  obtain ⟨h1, h2⟩ := hi
  refine ⟨(songs_loop h).trans h1, ?_⟩
  rcases h2 with ⟨k, len, rest, h2⟩ | ⟨h2, h3⟩
  · obtain ⟨new, hn⟩ := news_mono_loop h
    exact Or.inl ⟨k, len, rest ++ new, by rw [hn, h2]; simp⟩
  · obtain ⟨songs', position, tokens, inflight, playing, playingLast, current, pc, out, news, pauses, blocks, cuts⟩ := s
    simp only at h1 h2 h3
    subst h1 h2
    have hlen : 0 < songs'.length := List.length_pos_iff.2 hne
    cases pc with
    | top =>
      simp only [loopStep] at h
      rw [if_neg (by omega), h3, tmod_nat] at h
      obtain ⟨song, hs1, hs2⟩ := goGet_nat songs' p hne
      rw [hs2] at h
      injection h with h; subst h
      rw [ht] at hs1
      injection hs1 with hs1
      exact Or.inr ⟨rfl, hs1.symm⟩
    | store pos song =>
      simp only at h3
      subst h3
      simp only [loopStep] at h
      rw [if_neg hplay.1] at h
      injection h with h; subst h
      exact Or.inr ⟨rfl, rfl⟩
    | opening song =>
      simp only at h3
      subst h3
      simp only [loopStep] at h
      split at h <;> rename_i hdec
      · have := hplay.2; simp [hdec] at this
      · injection h with h; subst h
        exact Or.inl ⟨_, _, [], rfl⟩
    | h1 rem =>
      simp only [loopStep] at h
      split at h <;> injection h with h <;> subst h <;> exact Or.inr ⟨rfl, h3⟩
    | h2 rem => simp only [loopStep] at h; injection h with h; subst h; exact Or.inr ⟨rfl, h3⟩
    | h3 rem => simp only [loopStep] at h; injection h with h; subst h; exact Or.inr ⟨rfl, h3⟩
    | body rem =>
      simp only [loopStep] at h
      split at h <;> injection h with h <;> subst h <;> exact Or.inr ⟨rfl, h3⟩
    | chk rem n ok =>
      simp only [loopStep] at h
      rw [if_pos h3.2] at h
      injection h with h; subst h
      exact Or.inr ⟨rfl, h3.1⟩
    | incR skip => exact absurd h3 id
    | incW skip v => exact absurd h3 id
    | brk =>
      simp only [loopStep] at h
      injection h with h; subst h
      exact Or.inr ⟨rfl, h3⟩
    | crashed => exact absurd h3 id

/-- The loop is playing a song (and has not yet decided to end it), or is between songs before picking the next. -/
def jumpSafe : Pc α → Bool
  | .h1 _ => true
  | .h2 _ => true
  | .h3 _ => true
  | .body _ => true
  | .chk _ _ _ => true
  | .brk => true
  | .top => true
  | _ => false

/-- C07, the part that holds: if `SetPos(p)` with `p ≥ 0` runs as a whole while the loop is in the middle of a song
or between two songs, and nobody jumps or edits afterwards, then the next announced song is the one at position `p`
modulo the playlist length. Missing from the full property: negative `p` (`C07_negative_jump_crashes`), a jump that
hits the moment between the end of a song and the position update (`C07_race_lands_one_too_far`) or the moment inside
nextSong (`C07_race_loses_jump`), and that the command always returns (`C07_third_jump_blocks`). -/
theorem C07_jump_partial (c : Cfg α) (s0 s1 s : St α) (p : Nat) (target : String) (acts : List Act)
    (hne : s0.songs ≠ []) (ht : s0.songs[p % s0.songs.length]? = some target)
    (hplay : target ≠ "" ∧ (c.dec target).isSome) (hsafe : jumpSafe s0.pc = true)
    (hj : run c s0 [.jumpWrite p, .jumpToken] = some s1) (hcalm : ∀ a ∈ acts, calm a)
    (h : run c s1 acts = some s) :
    s.news = s0.news ∨ ∃ k len rest, s.news = s0.news ++ (k, target, len) :: rest := by
  have hj1 : s1.songs = s0.songs ∧ s1.news = s0.news ∧ s1.position = p ∧ 0 < s1.tokens ∧ s1.pc = s0.pc := by
    cases hpc : s0.pc <;> simp [hpc, jumpSafe] at hsafe <;> simp [run, step, hpc] at hj <;>
      split at hj <;> rename_i hx <;> simp at hj <;> subst hj <;> split at hx <;> simp at hx <;> subst hx <;>
      simp
  obtain ⟨j1, j2, j3, j4, j5⟩ := hj1
  have hinit : JumpInv s0.songs p target s0.news s1 := by
    refine ⟨j1, Or.inr ⟨j2, ?_⟩⟩
    cases hpc : s0.pc <;> rw [hpc] at j5 hsafe <;> simp [jumpSafe] at hsafe <;> rw [j5] <;>
      first | exact ⟨j3, j4⟩ | exact j3
  have hi : JumpInv s0.songs p target s0.news s :=
    run_induct (ok := calm) (P := JumpInv s0.songs p target s0.news)
      (fun _ _ _ ha hi hs => jumpInv_step hne ht hplay ha hi hs) hcalm hinit h
  rcases hi.2 with h | h
  · exact Or.inr h
  · exact Or.inl h.1

/-- C07 fails for negative positions: as soon as the loop picks a song while `position` is negative and not a
multiple of the number of songs, the server crashes, for every playlist. -/
theorem C07_negative_jump_crashes (c : Cfg α) (s0 : St α) (p : Int) (htop : s0.pc = .top) (hne : s0.songs ≠ [])
    (hp : p < 0) (hmod : ¬ (s0.songs.length : Int) ∣ p) :
    ∃ s, run c s0 [.jumpWrite p, .loop] = some s ∧ s.pc = .crashed ∧ ∀ a, step c s a = none := by
  have hlen : 0 < s0.songs.length := List.length_pos_iff.2 hne
  have hneg : p.tmod s0.songs.length < 0 := by
    have h1 : p.tmod s0.songs.length ≤ 0 := by
      have := Int.tmod_nonneg (a := -p) (s0.songs.length : Int) (by omega)
      rw [Int.neg_tmod] at this
      omega
    have h2 : p.tmod s0.songs.length ≠ 0 := by
      intro h
      exact hmod (Int.dvd_of_tmod_eq_zero h)
    omega
  refine ⟨{ s0 with position := p, inflight := s0.inflight + 1, pc := .crashed }, ?_, rfl, ?_⟩
  · have hl : ¬ s0.songs.length = 0 := by omega
    simp only [run, step, htop, loopStep, hl, if_false]
    simp only [Playlist.goGet, hneg, if_true]
  · intro a; simp [step]

/-- Songs of 3 samples. -/
def tinyCfg : Cfg Unit := { dec := fun n => if n = "bad" then none else some [(), (), ()], brk := 1 }

/-- C07 fails under a race: the complete `SetPos(0)` arrives after the loop decided that song "a" is over and before
it updates the position. The next song started is "b" (position 1), not "a" (position 0). -/
theorem C07_race_lands_one_too_far :
    ∃ s, run tinyCfg (init ["a", "b", "c"])
        ([.setPlaying true, .loop, .loop, .loop, .loop, .loop, .loop] ++ [.jumpWrite 0, .jumpToken] ++
          [.loop, .loop, .loop, .loop, .loop, .loop]) = some s ∧
      s.news = [(0, "a", 3), (4, "b", 3)] := ⟨_, rfl, rfl⟩

/-- C07 fails under a race: `SetPos(2)` completes while nextSong has read the position and not yet written it back:
the jump is lost, "a" is played, and one block later "a" is started again. -/
theorem C07_race_loses_jump :
    ∃ s, run tinyCfg (init ["a", "b", "c"])
        ([.setPlaying true, .loop] ++ [.jumpWrite 2, .jumpToken] ++ List.replicate 20 .loop) = some s ∧
      s.news.map (·.2.1) = ["a", "a", "b"] := ⟨_, rfl, rfl⟩

/-- With an empty playlist nobody reads `forceNext`. -/
theorem C07_third_jump_blocks (c : Cfg α) (s0 : St α) (htop : s0.pc = .top) (he : s0.songs = [])
    (htok : s0.tokens = 2) (acts : List Act) (s : St α) (hno : ∀ a ∈ acts, ∀ l, a ≠ .edit l)
    (h : run c s0 acts = some s) : step c s .jumpToken = none ∧ s.inflight ≥ s0.inflight := by
  have hi : s.pc = .top ∧ s.songs = [] ∧ s.tokens = 2 ∧ s.inflight ≥ s0.inflight := by
    refine run_induct (c := c) (ok := fun a => ∀ l, a ≠ .edit l)
      (P := fun s => s.pc = .top ∧ s.songs = [] ∧ s.tokens = 2 ∧ s.inflight ≥ s0.inflight) ?_ hno
      ⟨htop, he, htok, Nat.le_refl _⟩ h
    intro s s' a hok hi hs
    obtain ⟨i1, i2, i3, i4⟩ := hi
    rcases step_cases hs with ⟨_, h⟩ | ⟨p, _, rfl⟩ | ⟨_, _, hlt, rfl⟩ | ⟨b, _, rfl⟩ | ⟨l, rfl, rfl⟩
    · simp [loopStep, i1, i2] at h
      subst h
      exact ⟨rfl, rfl, i3, i4⟩
    · exact ⟨i1, i2, i3, by simp; omega⟩
    · omega
    · exact ⟨i1, i2, i3, i4⟩
    · exact absurd rfl (hok l)
  refine ⟨?_, hi.2.2.2⟩
  simp [step, hi.1, hi.2.2.1]

/-- ... and two jumps on the empty playlist (as right after the server start) reach that situation: the third `jump`
command has written its position and waits forever. -/
theorem C07_third_jump_blocks_reachable :
    ∃ s, run tinyCfg (init []) [.jumpWrite 0, .jumpToken, .jumpWrite 0, .jumpToken, .jumpWrite 0] = some s ∧
      s.pc = .top ∧ s.songs = [] ∧ s.tokens = 2 ∧ s.inflight = 1 := ⟨_, rfl, rfl, rfl, rfl, rfl⟩

/-! ### C12 -/

/-- C12 fails: if no song of a non-empty playlist can be played, the loop spins forever without pushing a single
sample: after any number of its steps the stream is unchanged. -/
theorem C12_unplayable_livelock (c : Cfg α) (s0 : St α) (p0 : Nat) (htop : s0.pc = .top) (hne : s0.songs ≠ [])
    (hbad : ∀ n ∈ s0.songs, n ≠ "" ∧ c.dec n = none) (hpos : s0.position = p0) (n : Nat) :
    ∃ s, run c s0 (List.replicate n .loop) = some s ∧ s.out = s0.out := by
  have key : ∀ (n : Nat) (s : St α), s.songs = s0.songs → s.out = s0.out →
      (match s.pc with
        | .top => ∃ p : Nat, s.position = p
        | .store pos song => (∃ p : Nat, pos = p) ∧ song ∈ s0.songs
        | .opening song => (∃ p : Nat, s.position = p) ∧ song ∈ s0.songs
        | .incR true => ∃ p : Nat, s.position = p
        | .incW true v => ∃ p : Nat, v = p
        | _ => False) →
      ∃ s', run c s (List.replicate n .loop) = some s' ∧ s'.out = s0.out := by
    intro n
    induction n with
    | zero => intro s _ h2 _; exact ⟨s, rfl, h2⟩
    | succ n ih =>
      intro s h1 h2 h3
      obtain ⟨songs', position, tokens, inflight, playing, playingLast, current, pc, out, news, pauses, blocks, cuts⟩ := s
      simp only at h1 h2 h3
      subst h1 h2
      have hlen : 0 < s0.songs.length := List.length_pos_iff.2 hne
      simp only [List.replicate_succ, run, step]
      cases pc with
      | top =>
        obtain ⟨p, rfl⟩ := h3
        obtain ⟨song, hs1, hs2⟩ := goGet_nat s0.songs p hne
        simp only [loopStep]
        rw [if_neg (by omega), tmod_nat, hs2]
        exact ih _ rfl rfl ⟨⟨_, rfl⟩, List.mem_of_getElem? hs1⟩
      | store pos song =>
        obtain ⟨⟨p, rfl⟩, hm⟩ := h3
        simp only [loopStep]
        rw [if_neg (hbad song hm).1]
        exact ih _ rfl rfl ⟨⟨p, rfl⟩, hm⟩
      | opening song =>
        obtain ⟨⟨p, rfl⟩, hm⟩ := h3
        simp only [loopStep, (hbad song hm).2]
        exact ih _ rfl rfl ⟨p, rfl⟩
      | incR skip =>
        cases skip
        · exact absurd h3 id
        · obtain ⟨p, rfl⟩ := h3
          exact ih _ rfl rfl ⟨p, rfl⟩
      | incW skip v =>
        cases skip
        · exact absurd h3 id
        · obtain ⟨p, rfl⟩ := h3
          exact ih _ rfl rfl ⟨p + 1, by simp⟩
      | _ => exact absurd h3 id
  exact key n s0 rfl rfl (by rw [htop]; exact ⟨p0, hpos⟩)

/-- The stream grows from `s` within finitely many steps of the loop alone. -/
def Grows (c : Cfg α) (s : St α) : Prop :=
  ∃ n s', run c s (List.replicate n .loop) = some s' ∧ s.out.length < s'.out.length

theorem grows_of_step {c : Cfg α} {s s1 : St α} (h : step c s .loop = some s1) (ho : s.out.length ≤ s1.out.length)
    (hg : Grows c s1) : Grows c s := by
  obtain ⟨n, s', hr, hl⟩ := hg
  exact ⟨n + 1, s', by simp [List.replicate_succ, run, h, hr], by omega⟩

theorem grows_now {c : Cfg α} {s s1 : St α} (h : step c s .loop = some s1) (ho : s.out.length < s1.out.length) :
    Grows c s := ⟨1, s1, by simp [run, h], ho⟩

theorem step_loop {c : Cfg α} {s : St α} (h : s.pc ≠ .crashed) : step c s .loop = loopStep c s := by
  unfold step
  split
  · rename_i h'; exact absurd h' h
  · rfl

/-- Positions held by the loop are not negative. -/
def NonNeg (s : St α) : Prop :=
  (∃ p : Nat, s.position = p) ∧
  match s.pc with
  | .store pos _ => ∃ p : Nat, pos = p
  | .incW _ v => ∃ p : Nat, v = p
  | .crashed => False
  | _ => True

section
variable {c : Cfg α}

/-- From the break, with a positive break size. -/
theorem grows_brk {s : St α} (hb : 0 < c.brk) (hpc : s.pc = .brk) : Grows c s := by
  apply grows_now (s1 := { s with out := s.out ++ List.replicate c.brk none, pc := .top })
  · rw [step_loop (by simp [hpc])]; simp [loopStep, hpc]
  · simp; omega

theorem grows_incW {s : St α} {v : Int} (hb : 0 < c.brk) (hpc : s.pc = .incW false v) : Grows c s := by
  apply grows_of_step (s1 := { s with position := v + 1, pc := .brk })
  · rw [step_loop (by simp [hpc])]; simp [loopStep, hpc]
  · simp
  · exact grows_brk hb rfl

theorem grows_incR {s : St α} (hb : 0 < c.brk) (hpc : s.pc = .incR false) : Grows c s := by
  apply grows_of_step (s1 := { s with pc := .incW false s.position })
  · rw [step_loop (by simp [hpc])]; simp [loopStep, hpc]
  · simp
  · exact grows_incW hb rfl

theorem grows_body {s : St α} {rem : List α} (hb : 0 < c.brk) (hpc : s.pc = .body rem) : Grows c s := by
  by_cases hp : s.playing = true
  · by_cases hr : rem = []
    · subst hr
      apply grows_of_step
        (s1 := { s with out := s.out ++ [], blocks := s.blocks ++ [(s.out.length, 0)], pc := .chk [] 0 false })
      · rw [step_loop (by simp [hpc])]; simp [loopStep, hpc, hp]
      · simp
      · by_cases ht : 0 < s.tokens
        · apply grows_of_step (s1 := { s with out := s.out ++ [], blocks := s.blocks ++ [(s.out.length, 0)],
                                              tokens := s.tokens - 1, cuts := s.cuts ++ [s.news.length], pc := .brk })
          · rw [step_loop (by simp)]; simp [loopStep, ht]
          · simp
          · exact grows_brk hb rfl
        · apply grows_of_step (s1 := { s with out := s.out ++ [], blocks := s.blocks ++ [(s.out.length, 0)],
                                              pc := .incR false })
          · rw [step_loop (by simp)]; simp [loopStep, ht]
          · simp
          · exact grows_incR hb rfl
    · have h2 := List.length_pos_iff.2 hr
      apply grows_now
      · rw [step_loop (by simp [hpc])]
        simp only [loopStep, hpc, hp, if_true]
        rfl
      · have h3 : bufSize = 512 := rfl
        simp only [List.length_append, List.length_map, List.length_take]
        omega
  · apply grows_now
    · rw [step_loop (by simp [hpc])]
      simp only [loopStep, hpc, hp]
      rfl
    · have h3 : bufSize = 512 := rfl
      simp only [List.length_append, List.length_replicate]
      omega

theorem grows_h3 {s : St α} {rem : List α} (hb : 0 < c.brk) (hpc : s.pc = .h3 rem) : Grows c s := by
  apply grows_of_step
  · rw [step_loop (by simp [hpc])]; simp only [loopStep, hpc]; rfl
  · simp
  · exact grows_body hb rfl

theorem grows_h2 {s : St α} {rem : List α} (hb : 0 < c.brk) (hpc : s.pc = .h2 rem) : Grows c s := by
  apply grows_of_step
  · rw [step_loop (by simp [hpc])]; simp only [loopStep, hpc]; rfl
  · simp
  · exact grows_h3 hb rfl

theorem grows_h1 {s : St α} {rem : List α} (hb : 0 < c.brk) (hpc : s.pc = .h1 rem) : Grows c s := by
  by_cases hx : s.playing = s.playingLast
  · apply grows_of_step (s1 := { s with pc := .body rem })
    · rw [step_loop (by simp [hpc])]; simp [loopStep, hpc, hx]
    · simp
    · exact grows_body hb rfl
  · apply grows_of_step (s1 := { s with pc := .h2 rem })
    · rw [step_loop (by simp [hpc])]; simp [loopStep, hpc, hx]
    · simp
    · exact grows_h2 hb rfl

theorem grows_chk {s : St α} {rem : List α} {n : Nat} {ok : Bool} (hb : 0 < c.brk) (hpc : s.pc = .chk rem n ok) :
    Grows c s := by
  by_cases ht : 0 < s.tokens
  · apply grows_of_step (s1 := { s with tokens := s.tokens - 1, cuts := s.cuts ++ [s.news.length], pc := .brk })
    · rw [step_loop (by simp [hpc])]; simp [loopStep, hpc, ht]
    · simp
    · exact grows_brk hb rfl
  · by_cases he : ok = false ∨ n < bufSize
    · apply grows_of_step (s1 := { s with pc := .incR false })
      · rw [step_loop (by simp [hpc])]; simp only [loopStep, hpc, ht, he, if_true, if_false]
      · simp
      · exact grows_incR hb rfl
    · apply grows_of_step (s1 := { s with pc := .h1 rem })
      · rw [step_loop (by simp [hpc])]; simp only [loopStep, hpc, ht, he, if_false]
      · simp
      · exact grows_h1 hb rfl

/-- From the top of the loop, `d` positions before a playable song. -/
theorem grows_top {songs : List String} (hb : 0 < c.brk) (hne : songs ≠ []) {good : String}
    (hplay : (c.dec good).isSome) : ∀ (d : Nat) (s : St α) (p : Nat), s.songs = songs → s.pc = .top → s.position = p →
    songs[(p + d) % songs.length]? = some good → Grows c s := by
  intro d
  induction d with
  | zero =>
    intro s p hs hpc hp hg
    subst hs
    obtain ⟨song, hs1, hs2⟩ := goGet_nat s.songs p hne
    have hlen : ¬ s.songs.length = 0 := by have := List.length_pos_iff.2 hne; omega
    rw [Nat.add_zero, hs1] at hg
    injection hg with hg
    subst hg
    apply grows_of_step (s1 := { s with pc := .store ((p % s.songs.length : Nat) : Int) song })
    · rw [step_loop (by simp [hpc])]
      simp only [loopStep, hpc, hlen, if_false, hp, tmod_nat, hs2]
    · simp
    by_cases he : song = ""
    · apply grows_now
      · rw [step_loop (by simp)]; simp only [loopStep, he, if_true]; rfl
      · have : noSongNan = 32768 := rfl
        simp only [List.length_append, List.length_replicate]; omega
    · apply grows_of_step
        (s1 := { s with position := ((p % s.songs.length : Nat) : Int), pc := .opening song })
      · rw [step_loop (by simp)]; simp only [loopStep, he, if_false]
      · simp
      cases hd : c.dec song with
      | none => simp [hd] at hplay
      | some l =>
        apply grows_of_step
        · rw [step_loop (by simp)]; simp only [loopStep, hd]; rfl
        · simp
        · exact grows_h1 hb rfl
  | succ d ih =>
    intro s p hs hpc hp hg
    obtain ⟨song, hs1, hs2⟩ := goGet_nat songs p hne
    subst hs
    have hlen : ¬ s.songs.length = 0 := by have := List.length_pos_iff.2 hne; omega
    apply grows_of_step (s1 := { s with pc := .store ((p % s.songs.length : Nat) : Int) song })
    · rw [step_loop (by simp [hpc])]
      simp only [loopStep, hpc, hlen, if_false, hp, tmod_nat, hs2]
    · simp
    by_cases he : song = ""
    · apply grows_now
      · rw [step_loop (by simp)]; simp only [loopStep, he, if_true]; rfl
      · have : noSongNan = 32768 := rfl
        simp only [List.length_append, List.length_replicate]; omega
    · apply grows_of_step
        (s1 := { s with position := ((p % s.songs.length : Nat) : Int), pc := .opening song })
      · rw [step_loop (by simp)]; simp only [loopStep, he, if_false]
      · simp
      cases hd : c.dec song with
      | some l =>
        apply grows_of_step
        · rw [step_loop (by simp)]; simp only [loopStep, hd]; rfl
        · simp
        · exact grows_h1 hb rfl
      | none =>
        apply grows_of_step (s1 := { s with position := ((p % s.songs.length : Nat) : Int), current := song,
                                            pc := .incR true })
        · rw [step_loop (by simp)]; simp only [loopStep, hd]
        · simp
        apply grows_of_step (s1 := { s with position := ((p % s.songs.length : Nat) : Int), current := song,
                                            pc := .incW true ((p % s.songs.length : Nat) : Int) })
        · rw [step_loop (by simp)]; simp only [loopStep]
        · simp
        apply grows_of_step (s1 := { s with position := ((p % s.songs.length : Nat) : Int) + 1, current := song,
                                            pc := .top })
        · rw [step_loop (by simp)]; simp [loopStep]
        · simp
        refine ih _ (p % s.songs.length + 1) rfl rfl (by simp) ?_
        have : (p % s.songs.length + 1 + d) % s.songs.length = (p + (d + 1)) % s.songs.length := by
          rw [Nat.add_assoc, Nat.mod_add_mod]; congr 1; omega
        rw [this]; exact hg

end

/-- C12, the part that holds: with a positive song break, when the playlist is empty or holds at least one playable
song, and no position is negative, the loop pushes another sample within finitely many of its own steps, from
whatever point it is at. Missing from the full property: playlists without any playable song
(`C12_unplayable_livelock`), negative jumps (`C07_negative_jump_crashes`), and a break size of 0. -/
theorem C12_progress_partial (c : Cfg α) (s : St α) (hb : 0 < c.brk) (hnn : NonNeg s)
    (hgood : s.songs = [] ∨ ∃ name ∈ s.songs, (c.dec name).isSome) : Grows c s := by
  have top : ∀ (s' : St α), s'.songs = s.songs → s'.pc = .top → (∃ p : Nat, s'.position = p) → Grows c s' := by
    intro s' hs hpc hp
    rcases hgood with he | ⟨name, hm, hd⟩
    · apply grows_now (s1 := { s' with out := s'.out ++ List.replicate noSongNan none })
      · rw [step_loop (by simp [hpc])]; simp [loopStep, hpc, hs, he]
      · have : noSongNan = 32768 := rfl
        simp only [List.length_append, List.length_replicate]; omega
    · obtain ⟨p, hp⟩ := hp
      obtain ⟨i, hi⟩ := List.getElem?_of_mem hm
      have hlt : i < s.songs.length := (List.getElem?_eq_some_iff.1 hi).1
      have hne : s.songs ≠ [] := by intro hx; rw [hx] at hlt; simp at hlt
      -- d = i + (len - p % len)
      refine grows_top (songs := s.songs) hb hne hd (i + (s.songs.length - p % s.songs.length)) s' p hs hpc hp ?_
      have hml : p % s.songs.length < s.songs.length := Nat.mod_lt _ (by omega)
      have : (p + (i + (s.songs.length - p % s.songs.length))) % s.songs.length = i := by
        have h1 := Nat.div_add_mod p s.songs.length
        have h2 : p + (i + (s.songs.length - p % s.songs.length)) =
            i + s.songs.length * (p / s.songs.length + 1) := by
          rw [Nat.mul_add]; omega
        rw [h2, Nat.add_mul_mod_self_left, Nat.mod_eq_of_lt hlt]
      rw [this]; exact hi
  obtain ⟨hp, hpcs⟩ := hnn
  cases hpc : s.pc with
  | top => exact top s rfl hpc hp
  | store pos song =>
    rw [hpc] at hpcs
    by_cases he : song = ""
    · apply grows_now
      · rw [step_loop (by simp [hpc])]; simp only [loopStep, hpc, he, if_true]; rfl
      · have : noSongNan = 32768 := rfl
        simp only [List.length_append, List.length_replicate]; omega
    · apply grows_of_step (s1 := { s with position := pos, pc := .opening song })
      · rw [step_loop (by simp [hpc])]; simp only [loopStep, hpc, he, if_false]
      · simp
      cases hd : c.dec song with
      | some l =>
        apply grows_of_step
        · rw [step_loop (by simp)]; simp only [loopStep, hd]; rfl
        · simp
        · exact grows_h1 hb rfl
      | none =>
        apply grows_of_step (s1 := { s with position := pos, current := song, pc := .incR true })
        · rw [step_loop (by simp)]; simp only [loopStep, hd]
        · simp
        apply grows_of_step (s1 := { s with position := pos, current := song, pc := .incW true pos })
        · rw [step_loop (by simp)]; simp only [loopStep]
        · simp
        apply grows_of_step (s1 := { s with position := pos + 1, current := song, pc := .top })
        · rw [step_loop (by simp)]; simp [loopStep]
        · simp
        obtain ⟨p, rfl⟩ := hpcs
        exact top _ rfl rfl ⟨p + 1, by simp⟩
  | opening song =>
    cases hd : c.dec song with
    | some l =>
      apply grows_of_step
      · rw [step_loop (by simp [hpc])]; simp only [loopStep, hpc, hd]; rfl
      · simp
      · exact grows_h1 hb rfl
    | none =>
      apply grows_of_step (s1 := { s with current := song, pc := .incR true })
      · rw [step_loop (by simp [hpc])]; simp only [loopStep, hpc, hd]
      · simp
      apply grows_of_step (s1 := { s with current := song, pc := .incW true s.position })
      · rw [step_loop (by simp)]; simp only [loopStep]
      · simp
      apply grows_of_step (s1 := { s with position := s.position + 1, current := song, pc := .top })
      · rw [step_loop (by simp)]; simp [loopStep]
      · simp
      obtain ⟨p, hp⟩ := hp
      exact top _ rfl rfl ⟨p + 1, by simp [hp]⟩
  | h1 rem => exact grows_h1 hb hpc
  | h2 rem => exact grows_h2 hb hpc
  | h3 rem => exact grows_h3 hb hpc
  | body rem => exact grows_body hb hpc
  | chk rem n ok => exact grows_chk hb hpc
  | incR skip =>
    cases skip with
    | false => exact grows_incR hb hpc
    | true =>
      apply grows_of_step (s1 := { s with pc := .incW true s.position })
      · rw [step_loop (by simp [hpc])]; simp only [loopStep, hpc]
      · simp
      apply grows_of_step (s1 := { s with position := s.position + 1, pc := .top })
      · rw [step_loop (by simp)]; simp [loopStep]
      · simp
      obtain ⟨p, hp⟩ := hp
      exact top _ rfl rfl ⟨p + 1, by simp [hp]⟩
  | incW skip v =>
    cases skip with
    | false => exact grows_incW hb hpc
    | true =>
      rw [hpc] at hpcs
      obtain ⟨p, rfl⟩ := hpcs
      apply grows_of_step (s1 := { s with position := (p : Int) + 1, pc := .top })
      · rw [step_loop (by simp [hpc])]; simp [loopStep, hpc]
      · simp
      exact top _ rfl rfl ⟨p + 1, by simp⟩
  | brk => exact grows_brk hb hpc
  | crashed => rw [hpc] at hpcs; exact absurd hpcs id

theorem nonNeg_step {c : Cfg α} {s s' : St α} {a : Act} (hok : ∀ p, a = .jumpWrite p → 0 ≤ p) (hi : NonNeg s)
    (hs : step c s a = some s') : NonNeg s' := by
  rcases step_cases hs with ⟨_, h⟩ | ⟨p, rfl, rfl⟩ | ⟨_, _, _, rfl⟩ | ⟨b, _, rfl⟩ | ⟨l, _, rfl⟩
  · obtain ⟨songs', position, tokens, inflight, playing, playingLast, current, pc, out, news, pauses, blocks, cuts⟩ := s
    obtain ⟨⟨p, hp⟩, hpc⟩ := hi
    simp only at hp hpc
    subst hp
    cases pc with
    | top =>
      simp only [loopStep] at h
      split at h
      · injection h with h; subst h; exact ⟨⟨p, rfl⟩, trivial⟩
      · rename_i hlen
        have hne : songs' ≠ [] := by intro hx; simp [hx] at hlen
        obtain ⟨song, hs1, hs2⟩ := goGet_nat songs' p hne
        rw [tmod_nat, hs2] at h
        injection h with h; subst h
        exact ⟨⟨p, rfl⟩, _, rfl⟩
    | store pos song =>
      obtain ⟨q, rfl⟩ := hpc
      simp only [loopStep] at h
      split at h <;> injection h with h <;> subst h <;> exact ⟨⟨q, rfl⟩, trivial⟩
    | opening song =>
      simp only [loopStep] at h
      split at h <;> injection h with h <;> subst h <;> exact ⟨⟨p, rfl⟩, trivial⟩
    | h1 rem =>
      simp only [loopStep] at h
      split at h <;> injection h with h <;> subst h <;> exact ⟨⟨p, rfl⟩, trivial⟩
    | h2 rem => simp only [loopStep] at h; injection h with h; subst h; exact ⟨⟨p, rfl⟩, trivial⟩
    | h3 rem => simp only [loopStep] at h; injection h with h; subst h; exact ⟨⟨p, rfl⟩, trivial⟩
    | body rem =>
      simp only [loopStep] at h
      split at h <;> injection h with h <;> subst h <;> exact ⟨⟨p, rfl⟩, trivial⟩
    | chk rem n ok =>
      simp only [loopStep] at h
      split at h
      · injection h with h; subst h; exact ⟨⟨p, rfl⟩, trivial⟩
      · split at h <;> injection h with h <;> subst h <;> exact ⟨⟨p, rfl⟩, trivial⟩
    | incR skip => simp only [loopStep] at h; injection h with h; subst h; exact ⟨⟨p, rfl⟩, _, rfl⟩
    | incW skip v =>
      obtain ⟨q, rfl⟩ := hpc
      simp only [loopStep] at h; injection h with h; subst h
      cases skip <;> exact ⟨⟨q + 1, by simp⟩, trivial⟩
    | brk => simp only [loopStep] at h; injection h with h; subst h; exact ⟨⟨p, rfl⟩, trivial⟩
    | crashed => simp [loopStep] at h
  · have := hok p rfl
    refine ⟨⟨p.toNat, by simp; omega⟩, ?_⟩
    exact hi.2
  · exact ⟨hi.1, hi.2⟩
  · exact ⟨hi.1, hi.2⟩
  · exact ⟨hi.1, hi.2⟩

/-- The non-negativity hypothesis of `C12_progress_partial` holds in every state reached by a schedule whose jumps
are to non-negative positions. -/
theorem C12_nonNeg_reachable (c : Cfg α) (songs : List String) (acts : List Act) (s : St α)
    (hj : ∀ p, Act.jumpWrite p ∈ acts → 0 ≤ p) (h : run c (init songs) acts = some s) : NonNeg s :=
  run_induct (c := c) (ok := fun a => ∀ p, a = .jumpWrite p → 0 ≤ p) (P := NonNeg)
    (fun _ _ _ hok hi hs => nonNeg_step hok hi hs)
    (fun _ ha p hp => hj p (hp ▸ ha)) ⟨⟨0, rfl⟩, trivial⟩ h

/-! ### Non-vacuity -/

example : ∃ s, run tinyCfg (init ["a", "b"]) (.setPlaying true :: List.replicate 38 .loop) = some s ∧
    s.news.map (·.2.1) = ["a", "b", "a", "b"] := ⟨_, rfl, rfl⟩

/-- A jump in the middle of a paused song. -/
example : ∃ s0 s1 s, run tinyCfg (init ["a", "b", "c"]) [.loop, .loop, .loop, .loop] = some s0 ∧
    jumpSafe s0.pc = true ∧ run tinyCfg s0 [.jumpWrite 5, .jumpToken] = some s1 ∧
    s1.tokens = 1 ∧ run tinyCfg s1 (List.replicate 8 .loop) = some s ∧
    s.news.map (·.2.1) = ["a", "c"] := ⟨_, _, _, rfl, rfl, rfl, rfl, rfl, rfl⟩

example : ∃ s, run tinyCfg (init ["bad", "x"]) [.loop, .loop] = some s ∧ NonNeg s ∧ 0 < tinyCfg.brk ∧
    ∃ name ∈ s.songs, (tinyCfg.dec name).isSome :=
  ⟨_, rfl, ⟨⟨0, rfl⟩, trivial⟩, by decide, "x", by decide, rfl⟩

example : ∀ n ∈ (init (α := Unit) ["bad", "bad"]).songs, n ≠ "" ∧ tinyCfg.dec n = none := by
  simp [init, tinyCfg]

end MS.StreamLoop
