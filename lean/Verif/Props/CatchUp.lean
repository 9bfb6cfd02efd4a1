import Verif.Props.InSync
/-!
# Properties C83, C84: falling behind, and starting before the clock is synchronised
-/
set_option linter.unusedVariables false
namespace MS.InSync
open MS.Streamer

variable {α : Type}

/-! ### C83 -/

/-- C83 fails inside a song: from the moment a player plays a song (direct mode) until the next marker, what it writes
does not depend on the clock at all. Whatever the calls' clock times and the samples' due times are, however late the
player is and however its clock is corrected meanwhile, it writes the next samples of the song one after the other,
skipping none and inserting no silence: a delay once taken lasts until the end of the song. -/
theorem C83_clock_ignored_in_song (rate len : Nat) : ∀ (nows : List Int) (p t : List (TS α)) (vs : List α),
    p.map (·.val) = vs.map some → len * nows.length ≤ vs.length →
    playLoop rate len nows false (p ++ t) =
      some ((vs.take (len * nows.length)).map some, false, p.drop (len * nows.length) ++ t) := by
  intro nows
  induction nows with
  | nil => intro p t vs hp hl; simp [playLoop]
  | cons now nows ih =>
    intro p t vs hp hl
    have hpl : p.length = vs.length := by simpa using congrArg List.length hp
    simp only [List.length_cons, Nat.mul_add, Nat.mul_one] at hl ⊢
    have h1 : stream rate len now false (p.take len ++ (p.drop len ++ t)) =
        some ((vs.take len).map some, false, p.drop len ++ t) :=
      C14_direct_exact rate len now _ _ _ (by rw [List.map_take, hp, List.map_take]) (by simp; omega)
    rw [← List.append_assoc, List.take_append_drop] at h1
    have h2 := ih (p.drop len) t (vs.drop len) (by rw [List.map_drop, hp, List.map_drop]) (by simp; omega)
    simp only [playLoop, h1, h2]
    rw [← List.map_append, Nat.add_comm (len * nows.length) len, List.take_add, List.drop_drop]

/-- The call in which the song ends: the rest of the song, then silence, and the player waits for the next song. -/
theorem last_call (rate len : Nat) (now : Int) (p : List (TS α)) (vs : List α) (m : TS α) (nans : List (TS α)) (f : TS α)
    (tl : List (TS α)) (hp : p.map (·.val) = vs.map some) (hl : vs.length < len) (hm : m.val = none)
    (hn : ∀ x ∈ nans, x.val = none) (hf : f.val.isSome)
    (hw : now + samplesDuration rate vs.length < f.time + samplesDuration rate (len - vs.length)) :
    stream rate len now false (p ++ m :: (nans ++ f :: tl)) =
      some (vs.map some ++ List.replicate (len - vs.length) none, true, f :: tl) := by
  have hd : ∀ (vs : List α) (p : List (TS α)) (k : Nat), p.map (·.val) = vs.map some →
      streamDirect (vs.length + (k + 1)) (p ++ m :: (nans ++ f :: tl)) = some (vs, true, nans ++ f :: tl) := by
    intro vs
    induction vs with
    | nil =>
      intro p k hp
      simp at hp; subst hp
      simp [streamDirect, hm]
    | cons v vs ih =>
      intro p k hp
      cases p with
      | nil => simp at hp
      | cons x p =>
        simp at hp
        rw [List.length_cons, show vs.length + 1 + (k + 1) = (vs.length + (k + 1)) + 1 by omega]
        simp [streamDirect, hp.1, ih p k (by simpa using hp.2)]
  have hd' := hd vs p (len - vs.length - 1) hp
  rw [show vs.length + (len - vs.length - 1 + 1) = len by omega] at hd'
  have hs : streamSync rate (len - vs.length) (now + samplesDuration rate vs.length) (nans ++ f :: tl) =
      some (len - vs.length, false, f :: tl) := by
    simp only [streamSync, skipNaN_append hn hf]
    rw [if_pos hw]
  obtain ⟨e, -⟩ := C15_sync_is_silent rate (len - vs.length) _ _ _ _ hs (by omega)
  rw [stream, if_neg (by omega)]
  simp only [Bool.false_eq_true, dite_false]
  split
  · rename_i hx; rw [hd'] at hx; simp at hx
  · rename_i hx
    rw [hd'] at hx
    simp only [Option.some.injEq, Prod.mk.injEq] at hx
    obtain ⟨rfl, rfl, rfl⟩ := hx
    rw [dif_pos rfl, if_neg (by simp), e]

/-- C83, the part that holds: the next marker (the end of the song or a pause) brings the player back. It plays the rest `p` of a song,
whatever its clock does (`early`: the calls during the song; the marker is met in the call at `last`). If the following
stretch is not due before the end of that call, it is played on schedule as in C71: from the call at `now` on, each
sample within one sample duration and one nanosecond per chunk border of its due time.
Missing from the full property: being back on schedule before the song ends (`C83_clock_ignored_in_song`). -/
theorem C83_back_after_marker_partial (rate len size : Nat) (hlen : 0 < len) (start : Int) (v : Nat → α) (a n : Nat) (hn : 0 < n)
    (p : List (TS α)) (vs : List α) (hp : p.map (·.val) = vs.map some) (m : TS α) (hm : m.val = none)
    (nans tail : List (TS α)) (hnan : ∀ x ∈ nans, x.val = none)
    (early : List Int) (last : Int) (waits : List Int) (now : Int) (nows : List Int)
    (hl1 : len * early.length ≤ vs.length) (hl2 : vs.length < len * (early.length + 1))
    (hlast : last + samplesDuration rate (vs.length - len * early.length) <
      due start size rate a + samplesDuration rate (len * (early.length + 1) - vs.length))
    (hw : ∀ w ∈ waits, w < due start size rate a + samplesDuration rate len)
    (h1 : due start size rate a + samplesDuration rate len ≤ now) (h2 : now ≤ due start size rate (a + n - 1))
    (out : List (Option α)) (sy' : Bool) (rest : List (TS α))
    (h : playLoop rate len (early ++ (last :: (waits ++ now :: nows))) false
      (p ++ m :: (nans ++ (stretch start size rate v a n ++ tail))) = some (out, sy', rest)) :
    (∀ j, j < vs.length → out[j]? = vs[j]?.map some) ∧
    (∀ j, vs.length ≤ j → j < len * (early.length + 1 + waits.length) → out[j]? = some none) ∧
    ∃ k, a ≤ k ∧ k < a + n ∧
      ∀ i, i < len * (nows.length + 1) → k + i < a + n →
        out[len * (early.length + 1 + waits.length) + i]? = some (some (v (k + i))) ∧
        due start size rate (k + i) - (now + samplesDuration rate i) ≤ samplesDuration rate 1 + 1 ∧
        -(((k + i) / size - k / size : Nat) : Int) ≤ due start size rate (k + i) - (now + samplesDuration rate i) := by
  obtain ⟨o1, s1, q1, o2, e1, e2, rfl⟩ := playLoop_append h
  rw [C83_clock_ignored_in_song rate len early p _ vs hp hl1] at e1
  simp only [Option.some.injEq, Prod.mk.injEq] at e1
  obtain ⟨rfl, rfl, rfl⟩ := e1
  have hpl : p.length = vs.length := by simpa using congrArg List.length hp
  have hcons : stretch start size rate v a n ++ tail =
      ⟨some (v a), due start size rate a⟩ :: (stretch start size rate v (a + 1) (n - 1) ++ tail) := by
    rw [stretch_split _ _ _ _ _ _ 1 (by omega)]; simp [stretch]
  have hsub : (vs.drop (len * early.length)).length = vs.length - len * early.length := by simp
  have hrem : len * (early.length + 1) = len * early.length + len := by rw [Nat.mul_add, Nat.mul_one]
  have hc := last_call rate len last (p.drop (len * early.length)) (vs.drop (len * early.length)) m nans
    ⟨some (v a), due start size rate a⟩ (stretch start size rate v (a + 1) (n - 1) ++ tail)
    (by rw [List.map_drop, hp, List.map_drop]) (by omega) hm hnan rfl
    (by rw [hsub]
        rw [show len - (vs.length - len * early.length) = len * (early.length + 1) - vs.length by omega]
        exact hlast)
  rw [← hcons] at hc
  simp only [playLoop, hc] at e2
  split at e2
  · simp at e2
  rename_i o3 s3 q3 e3
  simp only [Option.some.injEq, Prod.mk.injEq] at e2
  obtain ⟨rfl, rfl, rfl⟩ := e2
  rw [hsub]
  have hc71 := C71_on_schedule rate len size hlen start v a n hn [] tail (by simp) waits now nows hw h1 h2 o3 s3 q3 (by simpa using e3)
  obtain ⟨w1, k, k1, k2, k3, k4, k5⟩ := hc71
  have hL : ((vs.take (len * early.length)).map some ++
      ((vs.drop (len * early.length)).map some ++ List.replicate (len - (vs.length - len * early.length)) (none : Option α))) =
      vs.map some ++ List.replicate (len * (early.length + 1) - vs.length) none := by
    rw [← List.append_assoc, ← List.map_append, List.take_append_drop]
    congr 2
    omega
  have hout : ∀ (X : List (Option α)), (vs.take (len * early.length)).map some ++
      ((vs.drop (len * early.length)).map some ++ List.replicate (len - (vs.length - len * early.length)) (none : Option α) ++ X) =
      (vs.map some ++ List.replicate (len * (early.length + 1) - vs.length) none) ++ X := by
    intro X
    rw [← List.append_assoc, hL]
  rw [hout]
  have hbase : (vs.map some ++ List.replicate (len * (early.length + 1) - vs.length) (none : Option α)).length =
      len * (early.length + 1) := by
    simp only [List.length_append, List.length_map, List.length_replicate]; omega
  have htot : len * (early.length + 1 + waits.length) = len * (early.length + 1) + len * waits.length := Nat.mul_add _ _ _
  refine ⟨?_, ?_, k, k1, k2, ?_⟩
  · intro j hj
    rw [List.getElem?_append_left (by omega), List.getElem?_append_left (by simpa using hj), List.getElem?_map]
  · intro j hj1 hj2
    rcases Nat.lt_or_ge j (len * (early.length + 1)) with hj | hj
    · rw [List.getElem?_append_left (by omega), List.getElem?_append_right (by simpa using hj1), List.getElem?_replicate,
        List.length_map, if_pos (by omega)]
    · rw [List.getElem?_append_right (by omega), hbase]
      exact w1 _ (by omega)
  · intro i hi1 hi2
    obtain ⟨r1, r2, r3⟩ := k5 i hi1 hi2
    refine ⟨?_, r2, r3⟩
    rw [List.getElem?_append_right (by omega), hbase, htot,
      show len * (early.length + 1) + len * waits.length + i - len * (early.length + 1) = len * waits.length + i by omega]
    exact r1

/-! ### C84 -/

theorem dropLate_all {now : Int} {q : List (TS α)} (h : ∀ x ∈ q, x.time < now) : dropLate now q = none := by
  induction q with
  | nil => rfl
  | cons x q ih =>
    simp only [dropLate]
    rw [if_pos (h x (by simp))]
    exact ih (fun y hy => h y (by simp [hy]))

/-- C84 fails: a client's clock is `ahead` nanoseconds ahead of the server's. The player makes its first output call at
server time `t0`, before its first time synchronisation has finished (offset still 0). If the music it then has starts
at least one output buffer before `t0 + ahead`, the call does not return while only music due before server time
`t0 + ahead` arrives, however much that is: the player throws all of it away and is silent for the time its clock was
ahead, even if the clock is synchronised right after the call began. -/
theorem C84_unsynced_start_hangs (rate len : Nat) (hl : 0 < len) (t0 ahead : Int) (nows : List Int)
    (nans : List (TS α)) (f : TS α) (more : List (TS α)) (hn : ∀ x ∈ nans, x.val = none) (hf : f.val.isSome)
    (hlate : f.time + samplesDuration rate len ≤ t0 + ahead)
    (hdue : ∀ x ∈ f :: more, x.time < t0 + ahead) :
    playLoop rate len (Timing.syncedTime Timing.init (t0 + ahead) :: nows) true (nans ++ f :: more) = none := by
  have h0 : Timing.syncedTime Timing.init (t0 + ahead) = t0 + ahead := by simp [Timing.syncedTime, Timing.init]
  have hd := dur_nonneg rate len
  rw [h0]
  have hs : streamSync rate len (t0 + ahead) (nans ++ f :: more) = none := by
    simp only [streamSync, skipNaN_append hn hf]
    rw [if_neg (by omega), if_neg (by omega), dropLate_all hdue]
  simp only [playLoop]
  rw [stream, if_neg (by omega), dif_pos rfl]
  split
  · rfl
  · rename_i hx
    split at hx
    · rename_i hy; simp at hx
    · rename_i hy; rw [hs] at hy; simp at hy

theorem dropLate_suffix {now : Int} : ∀ {q r : List (TS α)}, dropLate now q = some r →
    ∃ late, q = late ++ r ∧ (∀ x ∈ late, x.time < now) ∧ ∃ s t, r = s :: t ∧ now ≤ s.time := by
  intro q
  induction q with
  | nil => intro r h; simp [dropLate] at h
  | cons x q ih =>
    intro r h
    simp only [dropLate] at h
    split at h
    · rename_i hx
      obtain ⟨late, e1, e2, e3⟩ := ih h
      refine ⟨x :: late, by simp [e1], ?_, e3⟩
      intro y hy
      rcases List.mem_cons.1 hy with rfl | hy
      · exact hx
      · exact e2 y hy
    · rename_i hx
      injection h with h
      subst h
      exact ⟨[], rfl, by simp, x, q, rfl, by omega⟩

/-- C84, the loss exactly: in the same situation, whatever arrives later (due times not decreasing) and whatever the
clock shows in the later calls, nothing due before server time `t0 + ahead` is ever played. -/
theorem C84_unsynced_start_loses (rate len : Nat) (hl : 0 < len) (t0 ahead : Int) (nows : List Int)
    (nans : List (TS α)) (f : TS α) (more : List (TS α)) (hn : ∀ x ∈ nans, x.val = none) (hf : f.val.isSome)
    (hlate : f.time + samplesDuration rate len ≤ t0 + ahead)
    (hsort : (f :: more).Pairwise (fun x y => x.time ≤ y.time)) (out : List (Option α)) (sy' : Bool) (rest : List (TS α))
    (h : playLoop rate len (Timing.syncedTime Timing.init (t0 + ahead) :: nows) true (nans ++ f :: more) =
      some (out, sy', rest)) :
    ((audible out).map some).Sublist (((f :: more).filter (fun x => decide (t0 + ahead ≤ x.time))).map (·.val)) := by
  have h0 : Timing.syncedTime Timing.init (t0 + ahead) = t0 + ahead := by simp [Timing.syncedTime, Timing.init]
  have hd := dur_nonneg rate len
  rw [h0] at h
  cases hdl : dropLate (t0 + ahead) (f :: more) with
  | none =>
    have hs : streamSync rate len (t0 + ahead) (nans ++ f :: more) = none := by
      simp only [streamSync, skipNaN_append hn hf]
      rw [if_neg (by omega), if_neg (by omega), hdl]
    simp only [playLoop] at h
    rw [stream, if_neg (by omega), dif_pos rfl] at h
    split at h
    · simp at h
    · rename_i hx
      split at hx
      · rename_i hy; simp at hx
      · rename_i hy; rw [hs] at hy; simp at hy
  | some r =>
    have hs : streamSync rate len (t0 + ahead) (nans ++ f :: more) = some (0, true, r) := by
      simp only [streamSync, skipNaN_append hn hf]
      rw [if_neg (by omega), if_neg (by omega), hdl]
    obtain ⟨late, e1, e2, s, t, e3, e4⟩ := dropLate_suffix hdl
    have hstream : stream rate len (t0 + ahead) true (nans ++ f :: more) = stream rate len (t0 + ahead) false r := by
      rw [stream, if_neg (by omega), dif_pos rfl]
      split
      · rename_i hx; rw [hs] at hx; simp at hx
      · rename_i hx
        rw [hs] at hx
        simp only [Option.some.injEq, Prod.mk.injEq] at hx
        obtain ⟨rfl, rfl, rfl⟩ := hx
        rw [if_pos rfl, if_neg (by rw [e3]; simp), Nat.sub_zero, dur_zero, Int.add_zero]
        split
        · rename_i hy; rw [hy]
        · rename_i hy; rw [hy]; simp
    have hloop : playLoop rate len ((t0 + ahead) :: nows) false r = some (out, sy', rest) := by
      rw [← h]; simp only [playLoop, hstream]
    obtain ⟨_, consumed, c1, c2⟩ := C14_in_order rate len _ false r out sy' rest hloop
    have hr : ∀ x ∈ r, t0 + ahead ≤ x.time := by
      rw [e1, e3] at hsort
      have hp := (List.pairwise_append.1 hsort).2.1
      rw [e3]
      intro x hx
      rcases List.mem_cons.1 hx with rfl | hx
      · exact e4
      · have := (List.pairwise_cons.1 hp).1 x hx
        omega
    have hfil : (f :: more).filter (fun x => decide (t0 + ahead ≤ x.time)) = r := by
      rw [e1, List.filter_append, List.filter_eq_nil_iff.2, List.filter_eq_self.2, List.nil_append]
      · intro x hx; simpa using hr x hx
      · intro x hx; have := e2 x hx; simp; omega
    rw [hfil]
    refine c2.trans ?_
    rw [← c1, List.map_append]
    exact List.sublist_append_left _ _

/-- C84, the part that holds: if the unsynchronised clock is not far ahead (at each call `u` before the first
synchronisation it shows less than one output buffer after the due time of the first music), these calls write silence
and lose nothing, and once the clock is synchronised the music is played on schedule as in C71.
Missing from the full property: `C84_unsynced_start_hangs`. -/
theorem C84_slow_clock_partial (rate len size : Nat) (hl : 0 < len) (start : Int) (v : Nat → α) (a n : Nat) (hn : 0 < n)
    (nans tail : List (TS α)) (hnan : ∀ x ∈ nans, x.val = none) (unsynced waits : List Int) (now : Int) (nows : List Int)
    (hu : ∀ u ∈ unsynced, Timing.syncedTime Timing.init u < due start size rate a + samplesDuration rate len)
    (hw : ∀ w ∈ waits, w < due start size rate a + samplesDuration rate len)
    (h1 : due start size rate a + samplesDuration rate len ≤ now) (h2 : now ≤ due start size rate (a + n - 1))
    (out : List (Option α)) (sy' : Bool) (rest : List (TS α))
    (h : playLoop rate len (unsynced.map (Timing.syncedTime Timing.init) ++ (waits ++ now :: nows)) true
      (nans ++ (stretch start size rate v a n ++ tail)) = some (out, sy', rest)) :
    (∀ j, j < len * (unsynced.length + waits.length) → out[j]? = some none) ∧
    ∃ k, a ≤ k ∧ k < a + n ∧
      ∀ i, i < len * (nows.length + 1) → k + i < a + n →
        out[len * (unsynced.length + waits.length) + i]? = some (some (v (k + i))) ∧
        due start size rate (k + i) - (now + samplesDuration rate i) ≤ samplesDuration rate 1 + 1 ∧
        -(((k + i) / size - k / size : Nat) : Int) ≤ due start size rate (k + i) - (now + samplesDuration rate i) := by
  have hc := C71_on_schedule rate len size hl start v a n hn nans tail hnan
    (unsynced.map (Timing.syncedTime Timing.init) ++ waits) now nows
    (by
      intro w hw'
      rcases List.mem_append.1 hw' with hw' | hw'
      · obtain ⟨u, hu1, rfl⟩ := List.mem_map.1 hw'
        exact hu u hu1
      · exact hw w hw') h1 h2 out sy' rest (by rw [List.append_assoc]; exact h)
  simp only [List.length_append, List.length_map] at hc
  obtain ⟨w1, k, k1, k2, k3, k4, k5⟩ := hc
  exact ⟨w1, k, k1, k2, k5⟩

/-! ### Concrete cases -/

/-- 1000 samples a second, output buffers of 2 samples. The song has 5 samples left, due from 0 on, but the first of
the three calls is at 100 ms: they are played 100 ms late, whatever the clock. After the marker the next stretch
(samples 1 to 20, due from 201 ms on) is met in time and played on schedule. -/
example : playLoop (α := Nat) 1000 2 [100000000, 3, 104000000, 203000000] false
    ([⟨some 50, 0⟩, ⟨some 51, 1000000⟩, ⟨some 52, 2000000⟩, ⟨some 53, 3000000⟩, ⟨some 54, 4000000⟩] ++
      ⟨none, 5000000⟩ :: ([⟨none, 6000000⟩] ++ (stretch 200000000 4 1000 id 1 20 ++ []))) =
    some ([some 50, some 51, some 52, some 53, some 54, none, some 3, some 4], false, stretch 200000000 4 1000 id 5 16) := by
  simp [playLoop, stream, streamSync, skipNaN, samplesDuration, dropLate, streamDirect, List.replicate, stretch, List.range', due,
      StreamMusic.chunkTime]

/-- The hypotheses of `C83_back_after_marker_partial` for it. -/
example : 2 * [100000000, (3 : Int)].length ≤ 5 ∧ 5 < 2 * ([100000000, (3 : Int)].length + 1) ∧
    104000000 + samplesDuration 1000 (5 - 2 * 2) < due 200000000 4 1000 1 + samplesDuration 1000 (2 * 3 - 5) ∧
    due 200000000 4 1000 1 + samplesDuration 1000 2 ≤ 203000000 ∧ 203000000 ≤ due 200000000 4 1000 (1 + 20 - 1) := by
  decide

/-- A client clock 10 s ahead; music due at server times 1 s and 1.001 s, joined at 1 s: nothing is played. -/
example : playLoop (α := Nat) 1000 2 [Timing.syncedTime Timing.init (1000000000 + 10000000000)] true
    ([] ++ ⟨some 0, 1000000000⟩ :: [⟨some 1, 1001000000⟩]) = none :=
  C84_unsynced_start_hangs 1000 2 (by decide) _ _ [] [] _ _ (by simp) rfl (by decide) (by decide)

end MS.InSync
