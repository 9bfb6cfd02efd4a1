import Verif.Model.ReadChunks
import Verif.Lemmas.Streamer
/-!
# Properties C18, C19, C20: from received chunks to buffered samples
-/
namespace MS.ReadChunks
open MS.Streamer

variable {α : Type}

/-- Specification: sample `i` of a chunk is due `i` sample durations (whole nanoseconds, rounded down) after the
chunk's start. -/
def stamped (rate : Nat) (c : Chunk α) : List (TS α) :=
  (List.range c.samples.length).zipWith (fun (i : Nat) v => ⟨v, c.start + ((i : Int) * 1000000000) / rate⟩) c.samples

/-- Specification: the chunks queued in a schedule, in the order of their arrival. -/
def arrivals : List (Act α) → List (Chunk α)
  | [] => []
  | .queue c :: as => c :: arrivals as
  | .reader :: as => arrivals as

theorem dur_spec (rate i : Nat) : samplesDuration rate i = ((i : Int) * 1000000000) / rate := by
  rw [dur_nat, Int.mul_comm]
  simp

theorem stamped_length (rate : Nat) (c : Chunk α) : (stamped rate c).length = c.samples.length := by simp [stamped]

theorem stamped_take (rate : Nat) (c : Chunk α) (i : Nat) (h : i < c.samples.length) :
    (stamped rate c).take (i + 1) = (stamped rate c).take i ++ [⟨c.samples[i], c.start + samplesDuration rate i⟩] := by
  rw [List.take_add_one, List.getElem?_eq_getElem (by simpa [stamped] using h)]
  simp [stamped, dur_spec]

/-- Invariant: `done` are the chunks completely handled. -/
def Inv (s : St α) (arr : List (Chunk α)) : Prop :=
  ∃ done, arr = done ++ s.chunks ∧
    s.adds = done.flatMap (stamped s.rate) ++
      (match s.pc, s.chunks with
       | .adding i, c :: _ => (stamped s.rate c).take i
       | .pop, c :: _ => stamped s.rate c
       | _, _ => []) ∧
    (s.pc ≠ .test → s.chunks ≠ []) ∧
    (∀ i c cs, s.pc = .adding i → s.chunks = c :: cs → i ≤ c.samples.length)

theorem inv_step {s s' : St α} {arr : List (Chunk α)} {a : Act α} (hi : Inv s arr) (h : step s a = some s') :
    Inv s' (arr ++ arrivals [a]) ∧ s'.rate = s.rate := by
  obtain ⟨rate, chunks, pc, adds⟩ := s
  obtain ⟨done, h1, h2, h3, h4⟩ := hi
  simp only at h1 h2 h3 h4
  cases a with
  | queue c =>
    simp only [step] at h
    cases pc with
    | adding i => simp at h
    | test =>
      simp at h; subst h
      exact ⟨⟨done, by simp [arrivals, h1], by simpa using h2, by simp, by simp⟩, rfl⟩
    | lock =>
      simp at h; subst h
      exact ⟨⟨done, by simp [arrivals, h1], by simpa using h2, by simp, by simp⟩, rfl⟩
    | pop =>
      simp at h; subst h
      refine ⟨⟨done, by simp [arrivals, h1], ?_, by simp, by simp⟩, rfl⟩
      cases chunks with
      | nil => simp at h3
      | cons c0 cs => simpa using h2
  | reader =>
    simp only [step] at h
    cases pc with
    | test =>
      simp only at h
      split at h
      · rename_i hp
        injection h with h; subst h
        refine ⟨⟨done, by simp [arrivals, h1], by simpa using h2, ?_, by simp⟩, rfl⟩
        intro _ he
        simp only at he
        simp [he] at hp
      · injection h with h; subst h
        exact ⟨⟨done, by simp [arrivals, h1], h2, h3, h4⟩, rfl⟩
    | lock =>
      simp at h; subst h
      refine ⟨⟨done, by simp [arrivals, h1], ?_, by simpa using h3, by simp; omega⟩, rfl⟩
      cases chunks with
      | nil => simpa using h2
      | cons c0 cs => simpa using h2
    | adding i =>
      cases chunks with
      | nil => simp at h3
      | cons c cs =>
        simp only at h h2
        split at h
        · rename_i hlt
          injection h with h; subst h
          refine ⟨⟨done, by simp [arrivals, h1], ?_, by simp, by simp; grind⟩, rfl⟩
          simp only
          rw [stamped_take _ _ _ hlt, h2, List.append_assoc]
        · rename_i hlt
          injection h with h; subst h
          refine ⟨⟨done, by simp [arrivals, h1], ?_, by simp, by simp⟩, rfl⟩
          simp only
          rw [h2, List.take_of_length_le (by rw [stamped_length]; omega)]
    | pop =>
      cases chunks with
      | nil => simp at h3
      | cons c cs =>
        simp only at h h2
        injection h with h; subst h
        refine ⟨⟨done ++ [c], by simp [arrivals, h1], ?_, by simp, by simp⟩, rfl⟩
        simp [h2]

theorem inv_run {s s' : St α} {arr : List (Chunk α)} {acts : List (Act α)} (hi : Inv s arr) (h : run s acts = some s') :
    Inv s' (arr ++ arrivals acts) ∧ s'.rate = s.rate := by
  induction acts generalizing s arr with
  | nil => simp [run] at h; subst h; simpa [arrivals] using hi
  | cons a as ih =>
    simp only [run] at h
    split at h
    · rename_i s1 h1
      have hs := inv_step hi h1
      have := ih hs.1 h
      have e : arr ++ arrivals [a] ++ arrivals as = arr ++ arrivals (a :: as) := by
        cases a <;> simp [arrivals]
      rw [e] at this
      exact ⟨this.1, this.2.trans hs.2⟩
    · simp at h

theorem inv_init (rate : Nat) : Inv (init (α := α) rate) [] := ⟨[], rfl, rfl, by simp [init], by simp [init]⟩

/-- C20. Under every interleaving of the reader with chunk arrivals the samples added to the playback buffer are, in
order, the samples of the arrived chunks: those of the completely handled chunks (all but the ones still queued),
followed by the first `i` of the chunk being handled; each with the due time start + floor(i * 1s / rate). No chunk is
lost, repeated or reordered. -/
theorem C20_adds_exact (rate : Nat) (acts : List (Act α)) (s : St α) (h : run (init rate) acts = some s) :
    ∃ done, arrivals acts = done ++ s.chunks ∧
      ∃ i, s.adds = done.flatMap (stamped rate) ++ ((s.chunks.head?.map (stamped rate)).getD []).take i := by
  obtain ⟨⟨done, h1, h2, h3, h4⟩, hr⟩ := inv_run (inv_init rate) h
  simp only [List.nil_append] at h1
  have hr' : s.rate = rate := hr
  rw [hr'] at h2
  refine ⟨done, h1, ?_⟩
  cases hp : s.pc with
  | test => exact ⟨0, by rw [hp] at h2; simpa using h2⟩
  | lock => exact ⟨0, by rw [hp] at h2; simpa using h2⟩
  | adding i =>
    refine ⟨i, ?_⟩
    rw [hp] at h2
    cases hc : s.chunks with
    | nil => rw [hc] at h2; simpa using h2
    | cons c cs => rw [hc] at h2; simpa using h2
  | pop =>
    rw [hp] at h2
    cases hc : s.chunks with
    | nil => refine ⟨0, ?_⟩; rw [hc] at h2; simpa using h2
    | cons c cs =>
      refine ⟨(stamped rate c).length, ?_⟩
      rw [hc] at h2; simpa using h2

/-- C20, in closed form: the buffered samples are always a prefix of the stamped samples of all arrived chunks. -/
theorem C20_adds_prefix (rate : Nat) (acts : List (Act α)) (s : St α) (h : run (init rate) acts = some s) :
    s.adds <+: (arrivals acts).flatMap (stamped rate) := by
  obtain ⟨done, h1, i, h2⟩ := C20_adds_exact rate acts s h
  rw [h1, h2, List.flatMap_append]
  apply (List.prefix_append_right_inj _).2
  cases s.chunks with
  | nil => simp
  | cons c cs => simpa using (List.take_prefix i (stamped rate c)).trans (List.prefix_append _ _)

/-- C20, nothing is lost: the reader always has a step, and each arrived chunk gets handled: when no chunk is queued
any more all samples of all arrived chunks have been added. -/
theorem C20_all_added (rate : Nat) (acts : List (Act α)) (s : St α) (h : run (init rate) acts = some s)
    (hc : s.chunks = []) : s.adds = (arrivals acts).flatMap (stamped rate) := by
  obtain ⟨done, h1, i, h2⟩ := C20_adds_exact rate acts s h
  rw [h2, h1, hc]; simp

/-- C20, the reader is never stuck and never indexes an empty chunk list. -/
theorem C20_reader_never_stuck (rate : Nat) (acts : List (Act α)) (s : St α) (h : run (init rate) acts = some s) :
    (step s .reader).isSome := by
  obtain ⟨⟨done, h1, h2, h3, h4⟩, hr⟩ := inv_run (inv_init rate) h
  cases hp : s.pc with
  | test => simp only [step, hp]; split <;> simp
  | lock => simp [step, hp]
  | adding i =>
    cases hc : s.chunks with
    | nil => simp [hp, hc] at h3
    | cons c cs => simp only [step, hp, hc]; split <;> simp
  | pop =>
    cases hc : s.chunks with
    | nil => simp [hp, hc] at h3
    | cons c cs => simp [step, hp, hc]

/-- Steps the reader still has to do before the samples it has started on are all added and the list is empty. -/
def work (s : St α) : Nat :=
  match s.pc with
  | .test => (s.chunks.map (fun c => c.samples.length + 4)).sum
  | .lock => (s.chunks.map (fun c => c.samples.length + 4)).sum - 1
  | .adding i => (s.chunks.map (fun c => c.samples.length + 4)).sum - 2 - i
  | .pop => (s.chunks.tail.map (fun c => c.samples.length + 4)).sum + 1

/-- C20, progress: while a chunk is queued every reader step brings the reader closer to having added everything. -/
theorem C20_reader_progress (rate : Nat) (acts : List (Act α)) (s s' : St α) (h : run (init rate) acts = some s)
    (hne : s.chunks ≠ []) (hs : step s .reader = some s') : work s' < work s := by
  obtain ⟨⟨_, _, _, _, hi⟩, _⟩ := inv_run (inv_init rate) h
  obtain ⟨c, cs, hc⟩ := List.exists_cons_of_ne_nil hne
  cases hp : s.pc with
  | test => simp [step, hp, hc] at hs; subst hs; simp [work, hp, hc]
  | lock => simp [step, hp] at hs; subst hs; simp [work, hp, hc]; omega
  | adding i =>
    have := hi i c cs hp hc
    simp only [step, hp, hc] at hs
    split at hs
    · rename_i hlt
      injection hs with hs; subst hs
      simp [work, hp, hc]; omega
    · injection hs with hs; subst hs
      simp [work, hp, hc]; omega
  | pop =>
    simp [step, hp, hc] at hs
    subst hs
    simp [work, hp, hc]

/-- C19, refuted: two chunks that arrive in the wrong order (each received message is handled in its own goroutine)
are buffered in the wrong order, for all pairs of non-empty chunks. -/
theorem C19_out_of_order_arrival (rate : Nat) (c1 c2 : Chunk α) (x1 x2 : Option α) (r1 r2 : List (Option α))
    (h1 : c1.samples = x1 :: r1) (h2 : c2.samples = x2 :: r2) (hlt : c1.start < c2.start)
    (acts : List (Act α)) (s : St α) (h : run (init rate) acts = some s) (ha : arrivals acts = [c2, c1])
    (hdone : s.chunks = []) :
    ∃ a x b y e, s.adds = a ++ x :: b ++ y :: e ∧ y.time < x.time := by
  have := C20_all_added rate acts s h hdone
  refine ⟨[], ⟨x2, c2.start⟩, (stamped rate c2).tail, ⟨x1, c1.start⟩, (stamped rate c1).tail, ?_, hlt⟩
  have e1 : stamped rate c1 = ⟨x1, c1.start⟩ :: (stamped rate c1).tail := by
    simp [stamped, h1, List.range_succ_eq_map]
  have e2 : stamped rate c2 = ⟨x2, c2.start⟩ :: (stamped rate c2).tail := by
    simp [stamped, h2, List.range_succ_eq_map]
  rw [this, ha]
  simp [← e1, ← e2]

/-- Specification: due times never decrease. -/
def NonDecreasing (l : List (TS α)) : Prop := l.Pairwise (fun x y => x.time ≤ y.time)

theorem stamped_mem {rate : Nat} {c : Chunk α} {x : TS α} (h : x ∈ stamped rate c) :
    ∃ i, i < c.samples.length ∧ x.time = c.start + samplesDuration rate i := by
  obtain ⟨i, hi, rfl⟩ := List.getElem_of_mem h
  exact ⟨i, by simpa [stamped] using hi, by simp [stamped, dur_spec]⟩

theorem stamped_nonDecreasing (rate : Nat) (c : Chunk α) : NonDecreasing (stamped rate c) := by
  rw [NonDecreasing, List.pairwise_iff_getElem]
  intro i j hi hj hij
  have := dur_mono rate (Nat.le_of_lt hij)
  simp only [dur_spec] at this
  simp [stamped]
  omega

/-- C19, partial: if the chunks arrive in schedule order (each starts no earlier than the end of the one before, as
the server's time stamps do, property C13) the samples are buffered in non-decreasing due time. Missing: the order of
arrival is not enforced by the code. -/
theorem C19_in_order_arrival_partial (rate : Nat) (acts : List (Act α)) (s : St α) (h : run (init rate) acts = some s)
    (ho : (arrivals acts).Pairwise (fun c d => c.start + samplesDuration rate c.samples.length ≤ d.start)) :
    NonDecreasing s.adds := by
  have hp := C20_adds_prefix rate acts s h
  refine List.Pairwise.sublist hp.sublist ?_
  rw [List.pairwise_flatMap]
  refine ⟨fun c _ => stamped_nonDecreasing rate c, ho.imp ?_⟩
  intro c d hcd x hx y hy
  obtain ⟨i, hi, ex⟩ := stamped_mem hx
  obtain ⟨j, hj, ey⟩ := stamped_mem hy
  have h1 := dur_mono rate (Nat.le_of_lt hi)
  have h2 := dur_nonneg rate j
  omega

/-- C18. CombineSamples returns min(len low, len high) pairs, the i-th being (low[i], high[i]). -/
theorem C18_combine (low high : List α) :
    (combineSamples low high).length = min low.length high.length ∧
    ∀ (i : Nat) (hl : i < low.length) (hh : i < high.length), (combineSamples low high)[i]? = some (low[i], high[i]) := by
  have key : combineSamples low high = low.zip high := by
    have hgen : ∀ n, n ≤ low.length → n ≤ high.length →
        (List.range n).filterMap (pairAt low high) = (low.zip high).take n := by
      intro n
      induction n with
      | zero => intros; simp
      | succ n ih =>
        intro a b
        rw [List.range_succ, List.filterMap_append, ih (by omega) (by omega), List.take_add_one]
        rw [List.getElem?_eq_getElem (l := low.zip high) (i := n) (by simp; omega)]
        simp [pairAt, List.getElem?_eq_getElem (show n < low.length by omega), List.getElem?_eq_getElem (show n < high.length by omega)]
    simp only [combineSamples]
    rw [hgen _ (by split <;> omega) (by split <;> omega)]
    apply List.take_of_length_le
    simp only [List.length_zip]
    split <;> omega
  rw [key]
  refine ⟨by simp, ?_⟩
  intro i hl hh
  rw [List.getElem?_eq_getElem (by simp; omega)]
  simp

/-- Non-vacuity: a complete schedule with two chunks in order, one arriving while the first is handled. -/
example : ∃ s, run (init (α := Nat) 1000) [.queue ⟨0, [some 1, none]⟩, .reader, .reader, .reader, .reader, .reader,
    .queue ⟨2000000, [some 2]⟩, .reader, .reader, .reader, .reader, .reader, .reader] = some s ∧ s.chunks = [] ∧
    s.adds = [⟨some 1, 0⟩, ⟨none, 1000000⟩, ⟨some 2, 2000000⟩] := ⟨_, rfl, rfl, rfl⟩

/-- Non-vacuity for the refutation of C19. -/
example : ∃ s, run (init (α := Nat) 1000) [.queue ⟨2000000, [some 2]⟩, .queue ⟨0, [some 1]⟩, .reader, .reader, .reader,
    .reader, .reader, .reader, .reader, .reader, .reader, .reader] = some s ∧ s.chunks = [] ∧
    s.adds = [⟨some 2, 2000000⟩, ⟨some 1, 0⟩] := ⟨_, rfl, rfl, rfl⟩

example : combineSamples [1, 2, 3] [4, 5] = [(1, 4), (2, 5)] := rfl

end MS.ReadChunks
