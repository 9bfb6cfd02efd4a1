import Verif.Model.Timing
/-!
# Properties C21, C22: clock synchronisation
-/
namespace MS.Timing

/-- Specification: one request/response exchange as it happens in real time. The server clock is the client clock plus
`D`; the request travels `d1`, the server works `p`, the response travels `d2` nanoseconds. -/
structure Exchange where
  send : Int   -- client clock when the request is sent
  d1 : Int
  p : Int
  d2 : Int
  deriving DecidableEq, Repr

/-- The estimate the client computes for an exchange: server stamps are on the server's clock. -/
def estimate (D : Int) (e : Exchange) : Int :=
  calcOffset e.send (e.send + e.d1 + D) (e.send + e.d1 + D + e.p) (e.send + e.d1 + e.p + e.d2)

theorem estimate_eq (D : Int) (e : Exchange) : estimate D e = (2 * D + (e.d1 - e.d2)).tdiv 2 := by
  simp only [estimate, calcOffset]
  congr 1
  omega

/-- C21. The error of one exchange is at most half the difference of the two travel times, rounded up; so at most half
the network round trip (d1 + d2), rounded up. -/
theorem C21_single_error (D : Int) (e : Exchange) (h1 : 0 ≤ e.d1) (h2 : 0 ≤ e.d2) :
    2 * (estimate D e - D) ≤ e.d1 + e.d2 + 1 ∧ -(e.d1 + e.d2 + 1) ≤ 2 * (estimate D e - D) ∧
    2 * (estimate D e - D) ≤ (e.d1 - e.d2) + 1 ∧ (e.d1 - e.d2) - 1 ≤ 2 * (estimate D e - D) := by
  rw [estimate_eq]
  have := Int.mul_tdiv_add_tmod (2 * D + (e.d1 - e.d2)) 2
  have h3 := Int.tmod_lt_of_pos (2 * D + (e.d1 - e.d2)) (show (0 : Int) < 2 by omega)
  have h4 := Int.lt_tmod_of_pos (2 * D + (e.d1 - e.d2)) (show (0 : Int) < 2 by omega)
  omega

/-- C21. With equal travel times the estimate is exact. -/
theorem C21_symmetric_exact (D : Int) (e : Exchange) (h : e.d1 = e.d2) : estimate D e = D := by
  rw [estimate_eq, h]
  rw [show 2 * D + (e.d2 - e.d2) = 2 * D by omega, Int.mul_tdiv_cancel_left _ (by omega)]

theorem foldl_add (l : List Int) (a : Int) : l.foldl (· + ·) a = a + l.sum := by
  induction l generalizing a with
  | nil => simp
  | cons x l ih => simp [ih]; omega

theorem mean_eq (l : List Int) : mean l = l.sum / l.length := by simp [mean, foldl_add]

theorem sum_bounds (l : List Int) (lo hi : Int) (h : ∀ x ∈ l, lo ≤ x ∧ x ≤ hi) :
    lo * l.length ≤ l.sum ∧ l.sum ≤ hi * l.length := by
  induction l with
  | nil => simp
  | cons x l ih =>
    have h1 := h x (by simp)
    have h2 := ih (fun y hy => h y (by simp [hy]))
    simp only [List.sum_cons, List.length_cons, Int.natCast_add, Int.mul_add, Int.natCast_one, Int.mul_one]
    omega

theorem sum_double (l : List Int) : (l.map (fun x => 2 * x)).sum = 2 * l.sum := by
  induction l with
  | nil => rfl
  | cons x l ih => simp [ih]; omega

/-- C21. The averaged offset obeys the bound of the worst exchange (plus rounding): if no exchange had a network round
trip above B, the mean is within B/2 + 1 ns of the true offset. -/
theorem C21_mean_error (D B : Int) (es : List Exchange) (hne : es ≠ [])
    (h : ∀ e ∈ es, 0 ≤ e.d1 ∧ 0 ≤ e.d2 ∧ e.d1 + e.d2 ≤ B) :
    -(B + 2) ≤ 2 * (mean (es.map (estimate D)) - D) ∧ 2 * (mean (es.map (estimate D)) - D) ≤ B + 1 := by
  rw [mean_eq]
  generalize hl : es.map (estimate D) = l
  have hlen : 0 < (l.length : Int) := by
    have : 0 < es.length := List.length_pos_iff.2 hne
    rw [← hl]; simp; omega
  have hb : ∀ x ∈ l.map (fun x => 2 * x), 2 * D - (B + 1) ≤ x ∧ x ≤ 2 * D + (B + 1) := by
    intro x hx
    rw [← hl] at hx
    simp only [List.map_map, List.mem_map, Function.comp_apply] at hx
    obtain ⟨e, he, rfl⟩ := hx
    have h1 := h e he
    have h2 := C21_single_error D e h1.1 h1.2.1
    omega
  have hs := sum_bounds _ _ _ hb
  rw [sum_double, List.length_map] at hs
  generalize (l.length : Int) = n at *
  generalize l.sum = S at *
  have hq := Int.mul_ediv_add_emod S n
  have hr1 := Int.emod_nonneg S (show n ≠ 0 by omega)
  have hr2 := Int.emod_lt_of_pos S hlen
  generalize S / n = q at *
  generalize S % n = r at *
  subst hq
  constructor
  · -- lower bound
    apply Classical.byContradiction
    intro hc
    have hc' : 2 * q + 2 ≤ 2 * D - (B + 1) := by omega
    have := Int.mul_le_mul_of_nonneg_right hc' (show 0 ≤ n by omega)
    have e1 : (2 * q + 2) * n = 2 * (n * q) + 2 * n := by
      rw [Int.add_mul, Int.mul_assoc, Int.mul_comm q n]
    omega
  · apply Classical.byContradiction
    intro hc
    have hc' : 2 * D + (B + 1) + 1 ≤ 2 * q := by omega
    have := Int.mul_le_mul_of_nonneg_right hc' (show 0 ≤ n by omega)
    have e1 : 2 * q * n = 2 * (n * q) := by rw [Int.mul_assoc, Int.mul_comm q n]
    have e2 : (2 * D + (B + 1) + 1) * n = (2 * D + (B + 1)) * n + n := by rw [Int.add_mul]; omega
    omega

/-- Specification: the estimates appended in a schedule. -/
def appended : List Act → List Int
  | [] => []
  | .append o :: as => o :: appended as
  | _ :: as => appended as

/-- A schedule without a further reset. -/
def noReset : List Act → Bool
  | [] => true
  | .reset _ :: _ => false
  | _ :: as => noReset as

/-- Invariant of a cycle of `n` responses that began with offset `old`. -/
structure Inv (n : Nat) (old : Int) (s : St) : Prop where
  cap : s.cap = n
  le : s.offsets.length ≤ n
  few : s.offsets.length < n → s.nAvg = 0 ∧ s.offset = old
  full : s.offsets.length = n → s.offset = mean s.offsets ∨ (s.offset = old ∧ 0 < s.nTest + s.nAvg)

theorem inv_run {grow : Nat → Nat} {n : Nat} {old : Int} (hn : 0 < n) : ∀ (acts : List Act) (s s' : St), Inv n old s →
    noReset acts = true → s.offsets.length + (appended acts).length ≤ n → run grow s acts = some s' →
    Inv n old s' ∧ s'.offsets = s.offsets ++ appended acts := by
  intro acts
  induction acts with
  | nil => intro s s' hi _ _ h; simp [run] at h; subst h; simp [appended, hi]
  | cons a as ih =>
    intro s s' hi hr hl h
    simp only [run] at h
    split at h
    · rename_i s1 h1
      obtain ⟨i1, i2, i3, i4⟩ := hi
      cases a with
      | reset m => simp [noReset] at hr
      | append o =>
        simp only [appended, List.length_cons] at hl
        simp only [step] at h1
        injection h1 with h1
        have hi1 : Inv n old s1 := by
          subst h1
          have hne : s.offsets.length ≠ s.cap := by omega
          refine ⟨by simp only; rw [if_neg hne, i1], by simp; omega, ?_, ?_⟩
          · intro hlt; simp at hlt; exact i3 (by omega)
          · intro _
            right
            exact ⟨(i3 (by omega)).2, by simp only; omega⟩
        have ho : s1.offsets = s.offsets ++ [o] := by subst h1; rfl
        have := ih s1 s' hi1 (by simpa [noReset] using hr) (by rw [ho]; simp; omega) h
        rw [ho] at this
        simpa [appended] using this
      | test =>
        simp only [step] at h1
        split at h1
        · rename_i ht
          split at h1
          · rename_i hc
            injection h1 with h1
            have hi1 : Inv n old s1 := by
              subst h1
              refine ⟨i1, i2, ?_, ?_⟩
              · intro hlt; simp only at hlt; omega
              · intro hf
                rcases i4 hf with h | h
                · exact .inl h
                · exact .inr ⟨h.1, by simp only; omega⟩
            have ho : s1.offsets = s.offsets := by subst h1; rfl
            have := ih s1 s' hi1 (by simpa [noReset] using hr) (by rw [ho]; simpa [appended] using hl) h
            rw [ho] at this
            simpa [appended] using this
          · rename_i hc
            injection h1 with h1
            have hi1 : Inv n old s1 := by
              subst h1
              refine ⟨i1, i2, i3, ?_⟩
              intro hf; simp only at hf; omega
            have ho : s1.offsets = s.offsets := by subst h1; rfl
            have := ih s1 s' hi1 (by simpa [noReset] using hr) (by rw [ho]; simpa [appended] using hl) h
            rw [ho] at this
            simpa [appended] using this
        · simp at h1
      | avg =>
        simp only [step] at h1
        split at h1
        · rename_i ht
          injection h1 with h1
          have hi1 : Inv n old s1 := by
            subst h1
            refine ⟨i1, i2, ?_, ?_⟩
            · intro hlt
              have := (i3 hlt).1
              omega
            · intro _; exact .inl rfl
          have ho : s1.offsets = s.offsets := by subst h1; rfl
          have := ih s1 s' hi1 (by simpa [noReset] using hr) (by rw [ho]; simpa [appended] using hl) h
          rw [ho] at this
          simpa [appended] using this
        · simp at h1
    · simp at h

theorem inv_reset (s : St) (n : Nat) (hn : 0 < n) (hq : s.nTest = 0 ∧ s.nAvg = 0) (grow : Nat → Nat) (s1 : St)
    (h : step grow s (.reset n) = some s1) : Inv n s.offset s1 ∧ s1.offsets = [] := by
  simp [step] at h
  subst h
  refine ⟨⟨rfl, by simp, ?_, ?_⟩, rfl⟩
  · intro _; exact ⟨hq.2, rfl⟩
  · intro h; simp at h; omega

/-- C22. After ResetOffsets(n), n > 0, with no response still being handled: whatever the interleaving of the response
goroutines, while fewer than n responses of the cycle have arrived the synced clock is unchanged. -/
theorem C22_unchanged_before_cycle_end (grow : Nat → Nat) (s0 : St) (n : Nat) (hn : 0 < n)
    (hq : s0.nTest = 0 ∧ s0.nAvg = 0) (acts : List Act) (hr : noReset acts = true)
    (hl : (appended acts).length < n) (s : St) (h : run grow s0 (.reset n :: acts) = some s) (raw : Int) :
    syncedTime s raw = syncedTime s0 raw := by
  simp only [run] at h
  split at h
  · rename_i s1 h1
    obtain ⟨hi, ho⟩ := inv_reset s0 n hn hq grow s1 h1
    obtain ⟨hi', ho'⟩ := inv_run hn acts s1 s hi hr (by rw [ho]; simp; omega) h
    have := (hi'.few (by rw [ho', ho]; simp; omega)).2
    simp [syncedTime, this]
  · simp at h

/-- C22. Once n responses have arrived and been handled the offset is the floor of the mean of exactly those n
estimates, whatever the interleaving of the response goroutines. -/
theorem C22_cycle_sets_mean (grow : Nat → Nat) (s0 : St) (n : Nat) (hn : 0 < n)
    (hq : s0.nTest = 0 ∧ s0.nAvg = 0) (acts : List Act) (hr : noReset acts = true)
    (hl : (appended acts).length = n) (s : St) (h : run grow s0 (.reset n :: acts) = some s)
    (hd : s.nTest = 0 ∧ s.nAvg = 0) :
    s.offset = (appended acts).sum / n := by
  simp only [run] at h
  split at h
  · rename_i s1 h1
    obtain ⟨hi, ho⟩ := inv_reset s0 n hn hq grow s1 h1
    obtain ⟨hi', ho'⟩ := inv_run hn acts s1 s hi hr (by rw [ho]; simp; omega) h
    rw [ho, List.nil_append] at ho'
    rcases hi'.full (by rw [ho', hl]) with h2 | h2
    · rw [h2, mean_eq, ho', hl]
    · omega
  · simp at h

/-- C22, in between (the n-th response arrived, some goroutine still at work) the offset is either the old one or
already the new mean: the clock never shows a third value. -/
theorem C22_no_intermediate_value (grow : Nat → Nat) (s0 : St) (n : Nat) (hn : 0 < n)
    (hq : s0.nTest = 0 ∧ s0.nAvg = 0) (acts : List Act) (hr : noReset acts = true)
    (hl : (appended acts).length ≤ n) (s : St) (h : run grow s0 (.reset n :: acts) = some s) :
    s.offset = s0.offset ∨ s.offset = (appended acts).sum / n := by
  simp only [run] at h
  split at h
  · rename_i s1 h1
    obtain ⟨hi, ho⟩ := inv_reset s0 n hn hq grow s1 h1
    obtain ⟨hi', ho'⟩ := inv_run hn acts s1 s hi hr (by rw [ho]; simp; omega) h
    rw [ho, List.nil_append] at ho'
    rcases Nat.lt_or_ge s.offsets.length n with h3 | h3
    · exact .inl (hi'.few h3).2
    · have h4 : s.offsets.length = n := by have := hi'.le; omega
      rcases hi'.full h4 with h2 | h2
      · right; rw [h2, mean_eq, h4, ho']
      · exact .inl h2.1
  · simp at h

/-- C21 and C22 together: after a complete cycle whose exchanges all had a network round trip of at most B, the synced
clock of the client differs from the server's clock by at most B/2 + 1 ns. -/
theorem C21_synced_clock_error (grow : Nat → Nat) (s0 : St) (hq : s0.nTest = 0 ∧ s0.nAvg = 0) (D B : Int)
    (es : List Exchange) (hne : es ≠ []) (hb : ∀ e ∈ es, 0 ≤ e.d1 ∧ 0 ≤ e.d2 ∧ e.d1 + e.d2 ≤ B) (acts : List Act)
    (hr : noReset acts = true) (he : appended acts = es.map (estimate D)) (s : St)
    (h : run grow s0 (.reset es.length :: acts) = some s) (hd : s.nTest = 0 ∧ s.nAvg = 0) (raw : Int) :
    -(B + 2) ≤ 2 * (syncedTime s raw - (raw + D)) ∧ 2 * (syncedTime s raw - (raw + D)) ≤ B + 1 := by
  have hset := C22_cycle_sets_mean grow s0 es.length (List.length_pos_iff.2 hne) hq acts hr (by rw [he]; simp) s h hd
  have hm := C21_mean_error D B es hne hb
  rw [mean_eq, List.length_map, ← he, ← hset] at hm
  simp only [syncedTime]
  omega

/-- C22, limit of the code: one more response than expected (a late one of the previous cycle) that is appended before
the n-th has been tested makes the slice grow, and the offset is not set at all although n responses arrived. -/
theorem C22_extra_response_loses_update (grow : Nat → Nat) (s0 : St) (n : Nat) (hg : n + 1 < grow n)
    (os : List Int) (hos : os.length = n + 1) :
    ∃ s, run grow s0 (.reset n :: os.map Act.append) = some s ∧
      ∀ (k : Nat) (s' : St), s0.nAvg = 0 → run grow s (List.replicate k .test) = some s' →
        s'.offset = s0.offset ∧ s'.nAvg = 0 := by
  have happ : ∀ (os : List Int) (s : St), ∃ s', run grow s (os.map Act.append) = some s' ∧
      s'.offsets = s.offsets ++ os ∧ s'.offset = s.offset ∧ s'.nAvg = s.nAvg ∧
      (s.offsets.length + os.length ≤ s.cap → s'.cap = s.cap) := by
    intro os
    induction os with
    | nil => intro s; exact ⟨s, rfl, by simp, rfl, rfl, fun _ => rfl⟩
    | cons o os ih =>
      intro s
      obtain ⟨s', e1, e2, e3, e4, e5⟩ := ih { s with
        offsets := s.offsets ++ [o]
        cap := if s.offsets.length = s.cap then grow s.cap else s.cap
        nTest := s.nTest + 1 }
      refine ⟨s', by simpa [run, step] using e1, by simp [e2], e3, e4, ?_⟩
      intro hle
      simp only [List.length_cons] at hle
      rw [e5 (by rw [if_neg (by omega)]; simp; omega)]
      simp only
      rw [if_neg (by omega)]
  obtain ⟨l, x, rfl⟩ : ∃ l x, os = l ++ [x] := by
    rcases List.eq_nil_or_concat os with h | ⟨l, x, h⟩
    · simp [h] at hos
    · exact ⟨l, x, by simpa using h⟩
  simp at hos
  have hrun_append : ∀ (a b : List Act) (s s1 : St), run grow s a = some s1 → run grow s (a ++ b) = run grow s1 b := by
    intro a b
    induction a with
    | nil => intro s s1 h; simp [run] at h; subst h; rfl
    | cons x a ih =>
      intro s s1 h
      simp only [List.cons_append, run] at h ⊢
      split at h
      · rename_i s2 h2
        exact ih s2 s1 h
      · simp at h
  obtain ⟨s1, a1, a2, a3, a4, a5⟩ := happ l { s0 with offsets := [], cap := n }
  have hc1 : s1.cap = n := a5 (by simp; omega)
  simp only [List.nil_append] at a2
  obtain ⟨s2, b1, b2, b3, b4, _⟩ := happ [x] s1
  have hc2 : s2.cap = grow n := by
    simp [run, step] at b1
    rw [← b1]
    simp [a2, hc1, hos]
  refine ⟨s2, ?_, ?_⟩
  · have e := hrun_append (l.map Act.append) ([x].map Act.append) _ s1 a1
    have : run grow s0 (Act.reset n :: (l ++ [x]).map Act.append) =
        run grow { s0 with offsets := [], cap := n } (l.map Act.append ++ [x].map Act.append) := by
      simp [run, step]
    rw [this, e, b1]
  · intro k s' hna hrun
    have key : ∀ (k : Nat) (s : St), s.offsets.length < s.cap → s.nAvg = 0 → s.offset = s0.offset →
        run grow s (List.replicate k .test) = some s' → s'.offset = s0.offset ∧ s'.nAvg = 0 := by
      intro k
      induction k with
      | zero => intro s _ h1 h2 h; simp [run] at h; subst h; exact ⟨h2, h1⟩
      | succ k ih =>
        intro s hlt h1 h2 h
        simp only [List.replicate_succ, run] at h
        split at h
        · rename_i s3 h3
          simp only [step] at h3
          split at h3
          · rw [if_neg (by omega)] at h3
            injection h3 with h3
            exact ih s3 (by subst h3; exact hlt) (by subst h3; exact h1) (by subst h3; exact h2) h
          · simp at h3
        · simp at h
    refine key k s2 ?_ (by rw [b4, a4]; exact hna) (by rw [b3, a3]) hrun
    rw [b2, a2, hc2]; simp; omega

/-- Non-vacuity: two interleaved responses of a cycle of two. -/
example : ∃ s, run (fun c => 2 * c) init [.reset 2, .append 5, .append (-8), .test, .test, .avg, .avg] = some s ∧
    s.offset = -2 ∧ s.nTest = 0 ∧ s.nAvg = 0 := ⟨_, rfl, rfl, rfl, rfl⟩

example : estimate 1000 ⟨5, 30, 7, 10⟩ = 1010 := by decide

/-- Non-vacuity of the lost update. -/
example : ∃ s, run (fun c => 2 * c) init [.reset 2, .append 5, .append 7, .append 9, .test, .test, .test] = some s ∧
    s.offset = 0 := ⟨_, rfl, rfl⟩

end MS.Timing
