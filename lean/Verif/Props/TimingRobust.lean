import Verif.Props.Timing
/-!
# Properties C81, C82: the clock under every schedule of resets and late responses
-/
namespace MS.Timing

/-- Invariant: the stored estimates are the last ones that arrived, and the offset, once set, is the mean of some
consecutive ones. -/
def Win (app : List Int) (done : Prop) (s : St) : Prop :=
  (∃ pre, app = pre ++ s.offsets) ∧ (¬ done → s.offset = 0) ∧
  (done → ∃ pre w post, app = pre ++ w ++ post ∧ w ≠ [] ∧ s.offset = w.sum / w.length)

theorem run_concat {grow : Nat → Nat} : ∀ (acts : List Act) (a : Act) (s s' : St),
    run grow s (acts ++ [a]) = some s' → ∃ s1, run grow s acts = some s1 ∧ step grow s1 a = some s' := by
  intro acts
  induction acts with
  | nil =>
    intro a s s' h
    refine ⟨s, rfl, ?_⟩
    simp only [List.nil_append, run] at h
    split at h
    · rename_i s1 h1; rw [h1]; exact h
    · simp at h
  | cons b acts ih =>
    intro a s s' h
    simp only [List.cons_append, run] at h
    split at h
    · rename_i s1 h1
      obtain ⟨s2, h2, h3⟩ := ih a s1 s' h
      exact ⟨s2, by simp only [run, h1]; exact h2, h3⟩
    · simp at h

theorem appended_append (a b : List Act) : appended (a ++ b) = appended a ++ appended b := by
  induction a with
  | nil => rfl
  | cons x a ih => cases x <;> simp [appended, ih]

theorem win_run (grow : Nat → Nat) (n : Nat) : ∀ (acts : List Act), acts.length = n → ∀ (s : St),
    run grow init acts = some s → Win (appended acts) (Act.avg ∈ acts) s := by
  induction n with
  | zero =>
    intro acts hn s h
    rw [List.length_eq_zero_iff] at hn
    subst hn
    simp [run] at h
    subst h
    exact ⟨⟨[], rfl⟩, fun _ => rfl, by simp⟩
  | succ n ih =>
    intro acts hn s h
    rcases List.eq_nil_or_concat acts with he | ⟨as, a, he⟩
    · subst he; simp at hn
    rw [List.concat_eq_append] at he
    subst he
    simp only [List.length_append, List.length_singleton] at hn
    obtain ⟨s1, h1, h2⟩ := run_concat as a init s h
    obtain ⟨⟨pre, w1⟩, w2, w3⟩ := ih as (by omega) s1 h1
    rw [appended_append]
    cases a with
    | reset m =>
      simp [step] at h2
      subst h2
      refine ⟨⟨appended as, by simp [appended]⟩, ?_, ?_⟩
      · intro hd; exact w2 (by simpa using hd)
      · intro hd
        obtain ⟨p, w, q, e1, e2, e3⟩ := w3 (by simpa using hd)
        exact ⟨p, w, q, by simp [appended, e1], e2, e3⟩
    | append o =>
      simp [step] at h2
      subst h2
      refine ⟨⟨pre, by simp [appended, w1]⟩, ?_, ?_⟩
      · intro hd; exact w2 (by simpa using hd)
      · intro hd
        obtain ⟨p, w, q, e1, e2, e3⟩ := w3 (by simpa using hd)
        exact ⟨p, w, q ++ [o], by simp [appended, e1], e2, e3⟩
    | test =>
      have hs : s.offsets = s1.offsets ∧ s.offset = s1.offset := by
        simp only [step] at h2
        split at h2
        · split at h2 <;> injection h2 with h2 <;> subst h2 <;> exact ⟨rfl, rfl⟩
        · simp at h2
      refine ⟨⟨pre, by simp [appended, w1, hs.1]⟩, ?_, ?_⟩
      · intro hd; rw [hs.2]; exact w2 (by simpa using hd)
      · intro hd
        obtain ⟨p, w, q, e1, e2, e3⟩ := w3 (by simpa using hd)
        exact ⟨p, w, q, by simp [appended, e1], e2, by rw [hs.2]; exact e3⟩
    | avg =>
      simp only [step] at h2
      split at h2
      · rename_i hc
        injection h2 with h2
        subst h2
        refine ⟨⟨pre, by simp [appended, w1]⟩, by simp, ?_⟩
        intro _
        exact ⟨pre, s1.offsets, [], by simp [appended, w1], hc.2, mean_eq _⟩
      · simp at h2

/-- C81. Under every schedule of synchronisation cycles, response goroutines and late responses of earlier cycles: the
offset is 0 until the first averaging, and from then on always the floor of the mean of some consecutive responses
(at least one) in the order they were handled. -/
theorem C81_offset_is_a_mean (grow : Nat → Nat) (acts : List Act) (s : St) (h : run grow init acts = some s) :
    (Act.avg ∉ acts → s.offset = 0) ∧
    (Act.avg ∈ acts → ∃ pre w post, appended acts = pre ++ w ++ post ∧ w ≠ [] ∧ s.offset = w.sum / w.length) := by
  have := win_run grow _ acts rfl s h
  exact ⟨this.2.1, this.2.2⟩

/-- C81. So whatever the schedule, however many responses come late or in excess: once the client has set its clock
for the first time, its synced clock is never further from the server's clock than half the longest round trip of any
exchange so far (plus 1 ns of rounding). `D` is the difference of the two raw clocks. -/
theorem C81_synced_clock_error (grow : Nat → Nat) (D B : Int) (acts : List Act) (s : St)
    (h : run grow init acts = some s) (hset : Act.avg ∈ acts)
    (hb : ∀ o ∈ appended acts, ∃ e : Exchange, o = estimate D e ∧ 0 ≤ e.d1 ∧ 0 ≤ e.d2 ∧ e.d1 + e.d2 ≤ B)
    (raw : Int) :
    -(B + 2) ≤ 2 * (syncedTime s raw - (raw + D)) ∧ 2 * (syncedTime s raw - (raw + D)) ≤ B + 1 := by
  obtain ⟨pre, w, post, e1, e2, e3⟩ := (C81_offset_is_a_mean grow acts s h).2 hset
  have hex : ∃ es : List Exchange, w = es.map (estimate D) ∧ ∀ e ∈ es, 0 ≤ e.d1 ∧ 0 ≤ e.d2 ∧ e.d1 + e.d2 ≤ B := by
    have : ∀ o ∈ w, ∃ e : Exchange, o = estimate D e ∧ 0 ≤ e.d1 ∧ 0 ≤ e.d2 ∧ e.d1 + e.d2 ≤ B :=
      fun o ho => hb o (by rw [e1]; simp [ho])
    clear e1 e2 e3
    induction w with
    | nil => exact ⟨[], rfl, by simp⟩
    | cons o w ih =>
      obtain ⟨e, he, hb⟩ := this o (by simp)
      obtain ⟨es, h1, h2⟩ := ih (fun o ho => this o (by simp [ho]))
      refine ⟨e :: es, by simp [h1, he], ?_⟩
      intro x hx
      rcases List.mem_cons.1 hx with rfl | hx
      · exact hb
      · exact h2 x hx
  obtain ⟨es, h1, h2⟩ := hex
  have hne : es ≠ [] := by intro hx; subst hx; exact e2 h1
  have hm := C21_mean_error D B es hne h2
  rw [← h1, mean_eq, ← e3] at hm
  simp only [syncedTime]
  omega

/-- Two cycles of two; the second response of the first cycle is handled in the second cycle. -/
example : ∃ s, run (fun c => 2 * c) init [.reset 2, .append 10, .test, .reset 2, .append 12, .append 8, .test, .test,
      .avg, .append 20, .test] = some s ∧ s.offset = 10 := ⟨_, rfl, rfl⟩

/-! ### C82 -/

/-- C82 fails: for every cycle length `n > 0` and any responses, if the next cycle begins while the goroutine of the
last response is between its test and its averaging, that goroutine's next step crashes the client. -/
theorem C82_reset_crashes (grow : Nat → Nat) (s0 : St) (n m : Nat) (os : List Int) (hn : 0 < n) (ho : os.length = n) :
    ∃ s, run grow s0 (.reset n :: os.map Act.append ++ [.test, .reset m]) = some s ∧ crashes s .avg := by
  have happ : ∀ (os : List Int) (s : St), s.offsets.length + os.length ≤ s.cap →
      ∃ s', run grow s (os.map Act.append) = some s' ∧
      s'.offsets = s.offsets ++ os ∧ s'.nTest = s.nTest + os.length ∧ s'.cap = s.cap := by
    intro os
    induction os with
    | nil => intro s _; exact ⟨s, rfl, by simp, by simp, rfl⟩
    | cons o os ih =>
      intro s hle
      simp only [List.length_cons] at hle
      obtain ⟨s', e1, e2, e3, e4⟩ := ih { s with
        offsets := s.offsets ++ [o]
        cap := if s.offsets.length = s.cap then grow s.cap else s.cap
        nTest := s.nTest + 1 } (by simp only [List.length_append, List.length_singleton]; rw [if_neg (by omega)]; omega)
      refine ⟨s', by simpa [run, step] using e1, by simp [e2], by rw [e3]; simp; omega, ?_⟩
      rw [e4]; simp only; rw [if_neg (by omega)]
  have hrun_append : ∀ (a b : List Act) (s s1 : St), run grow s a = some s1 → run grow s (a ++ b) = run grow s1 b := by
    intro a b
    induction a with
    | nil => intro s s1 h; simp [run] at h; subst h; rfl
    | cons x a ih =>
      intro s s1 h
      simp only [List.cons_append, run] at h ⊢
      split at h
      · rename_i s2 h2
        exact ih s2 s1 h
      · simp at h
  obtain ⟨s1, a1, a2, a3, a4⟩ := happ os { s0 with offsets := [], cap := n } (by simp; omega)
  simp only [List.nil_append] at a2 a3 a4
  refine ⟨{ s1 with offsets := [], cap := m, nTest := s1.nTest - 1, nAvg := s1.nAvg + 1 }, ?_, rfl, ?_, rfl⟩
  · rw [List.cons_append, run]
    simp only [step]
    rw [hrun_append _ _ _ _ a1]
    simp [run, step, a2, a3, a4, ho, show 0 < s0.nTest + n by omega]
  · exact Nat.succ_pos _

/-- A schedule in which every new cycle has at least one exchange and begins when no response goroutine is between
its test and its averaging. -/
def calmResets (grow : Nat → Nat) (s : St) : List Act → Prop
  | [] => True
  | a :: as => (∀ n, a = .reset n → 0 < n ∧ s.nAvg = 0) ∧ ∀ s', step grow s a = some s' → calmResets grow s' as

/-- Invariant: a goroutine that may average finds at least one estimate. -/
def Safe (s : St) : Prop := s.offsets.length ≤ s.cap ∧ (0 < s.nTest → 0 < s.cap) ∧ (0 < s.nAvg → s.offsets ≠ [])

theorem safe_run {grow : Nat → Nat} (hg : ∀ c, c < grow c) : ∀ (acts : List Act) (s s' : St), Safe s →
    calmResets grow s acts → run grow s acts = some s' → Safe s' := by
  intro acts
  induction acts with
  | nil => intro s s' h1 _ h; simp [run] at h; subst h; exact h1
  | cons a as ih =>
    intro s s' hs0 hc h
    simp only [run] at h
    split at h
    · rename_i s1 hs
      obtain ⟨h0, h1, h2⟩ := hs0
      have hnext : Safe s1 := by
        cases a with
        | reset n =>
          have := hc.1 n rfl
          simp [step] at hs
          subst hs
          exact ⟨by simp, fun _ => this.1, fun hx => by simp only at hx; omega⟩
        | append o =>
          simp [step] at hs
          subst hs
          have hg' := hg s.cap
          refine ⟨?_, fun _ => ?_, fun _ => by simp⟩
          · simp only [List.length_append, List.length_singleton]
            split <;> omega
          · simp only
            split <;> omega
        | test =>
          simp only [step] at hs
          split at hs
          · rename_i ht
            split at hs <;> injection hs with hs <;> subst hs
            · rename_i hl
              exact ⟨h0, fun _ => h1 ht, fun _ => by have := h1 ht; intro hx; rw [hx] at hl; simp at hl; omega⟩
            · exact ⟨h0, fun _ => h1 ht, h2⟩
          · simp at hs
        | avg =>
          simp only [step] at hs
          split at hs
          · rename_i ha
            injection hs with hs
            subst hs
            exact ⟨h0, h1, fun _ => ha.2⟩
          · simp at hs
      exact ih s1 s' hnext (hc.2 s1 hs) h
    · simp at h

/-- C82, the part that holds: if every cycle has at least one exchange and no new cycle begins while a response
goroutine is between its test and its averaging, no schedule crashes the client, and such a goroutine can always go
on. (`hg`: Go's `append` makes a full slice larger.) Missing from the full property: `C82_reset_crashes`. -/
theorem C82_no_crash_partial (grow : Nat → Nat) (hg : ∀ c, c < grow c) (acts : List Act) (s : St)
    (hc : calmResets grow init acts) (h : run grow init acts = some s) :
    (∀ a, ¬ crashes s a) ∧ (0 < s.nAvg → (step grow s .avg).isSome) := by
  have hs := safe_run hg acts init s ⟨by simp [init], by simp [init], by simp [init]⟩ hc h
  refine ⟨?_, ?_⟩
  · rintro a ⟨_, h1, h2⟩
    exact hs.2.2 h1 h2
  · intro h1
    simp [step, h1, hs.2.2 h1]

/-- Two cycles, the second begun when the first is over. -/
example : calmResets (fun c => c + 1) init [.reset 1, .append 5, .test, .avg, .reset 2] := by
  simp [calmResets, step, init]

/-- The crash with cycles of one exchange. -/
example : ∃ s, run (fun c => c + 1) init [.reset 1, .append 5, .test, .reset 1] = some s ∧ crashes s .avg :=
  ⟨_, rfl, rfl, by decide, rfl⟩

end MS.Timing
