import Verif.Model.Streamer
/-!
# Lemmas about the player's output side (playback/streamer.go)
-/
namespace MS.Streamer

variable {α : Type}

theorem dur_nat (rate n : Nat) : samplesDuration rate n = ((1000000000 * n / rate : Nat) : Int) := by
  simp only [samplesDuration]
  rw [show (1000000000 * (n : Int)) = ((1000000000 * n : Nat) : Int) by simp]
  rw [← Int.ofNat_tdiv]

theorem dur_nonneg (rate n : Nat) : 0 ≤ samplesDuration rate n := by
  rw [dur_nat]; exact Int.natCast_nonneg _

theorem dur_zero (rate : Nat) : samplesDuration rate 0 = 0 := by simp [dur_nat]

theorem dur_add (rate a b : Nat) : samplesDuration rate a + samplesDuration rate b ≤ samplesDuration rate (a + b) := by
  simp only [dur_nat]
  have : 1000000000 * a / rate + 1000000000 * b / rate ≤ 1000000000 * (a + b) / rate := by
    rcases Nat.eq_zero_or_pos rate with h | h
    · subst h; simp
    · rw [Nat.le_div_iff_mul_le h, Nat.add_mul, Nat.mul_add]
      exact Nat.add_le_add (Nat.div_mul_le_self _ _) (Nat.div_mul_le_self _ _)
  omega

theorem dur_add_le (rate a b : Nat) :
    samplesDuration rate (a + b) ≤ samplesDuration rate a + samplesDuration rate b + 1 := by
  simp only [dur_nat]
  have : 1000000000 * (a + b) / rate ≤ 1000000000 * a / rate + 1000000000 * b / rate + 1 := by
    rcases Nat.eq_zero_or_pos rate with h | h
    · subst h; simp
    · apply Nat.le_of_lt_succ
      rw [Nat.div_lt_iff_lt_mul h]
      have h1 := Nat.lt_div_mul_add (a := 1000000000 * a) h
      have h2 := Nat.lt_div_mul_add (a := 1000000000 * b) h
      have e : (1000000000 * a / rate + 1000000000 * b / rate + 1).succ * rate =
        1000000000 * a / rate * rate + 1000000000 * b / rate * rate + rate + rate := by
        rw [Nat.succ_mul, Nat.add_mul, Nat.add_mul, Nat.one_mul]
      rw [e, Nat.mul_add]
      omega
  omega

theorem dur_mono (rate : Nat) {a b : Nat} (h : a ≤ b) : samplesDuration rate a ≤ samplesDuration rate b := by
  have := dur_add rate a (b - a)
  have h2 := dur_nonneg rate (b - a)
  rw [show a + (b - a) = b by omega] at this
  omega

/-- What `skipNaN` does. -/
theorem skipNaN_spec {q : List (TS α)} {s : TS α} {r : List (TS α)} (h : skipNaN q = some (s, r)) :
    ∃ nans, q = nans ++ s :: r ∧ (∀ x ∈ nans, x.val = none) ∧ s.val.isSome := by
  induction q with
  | nil => simp [skipNaN] at h
  | cons x q ih =>
    simp only [skipNaN] at h
    split at h
    · rename_i hx
      obtain ⟨nans, h1, h2, h3⟩ := ih h
      refine ⟨x :: nans, by simp [h1], ?_, h3⟩
      intro y hy
      rcases List.mem_cons.1 hy with rfl | hy
      · exact hx
      · exact h2 y hy
    · rename_i v hx
      simp at h
      obtain ⟨rfl, rfl⟩ := h
      exact ⟨[], rfl, by simp, by simp [hx]⟩

theorem skipNaN_append {nans : List (TS α)} {s : TS α} {r : List (TS α)} (h : ∀ x ∈ nans, x.val = none)
    (hs : s.val.isSome) : skipNaN (nans ++ s :: r) = some (s, r) := by
  induction nans with
  | nil =>
    obtain ⟨v, hv⟩ := Option.isSome_iff_exists.1 hs
    simp [skipNaN, hv]
  | cons x nans ih =>
    have hx := h x (by simp)
    simp only [List.cons_append, skipNaN, hx]
    exact ih (fun y hy => h y (by simp [hy]))

theorem dropLate_spec {now : Int} {q r : List (TS α)} (h : dropLate now q = some r) :
    ∃ late, q = late ++ r ∧ (∀ x ∈ late, x.time < now) ∧ ∃ s r', r = s :: r' ∧ now ≤ s.time := by
  induction q with
  | nil => simp [dropLate] at h
  | cons x q ih =>
    simp only [dropLate] at h
    split at h
    · rename_i hx
      obtain ⟨late, h1, h2, h3⟩ := ih h
      refine ⟨x :: late, by simp [h1], ?_, h3⟩
      intro y hy
      rcases List.mem_cons.1 hy with rfl | hy
      · exact hx
      · exact h2 y hy
    · rename_i hx
      simp at h
      subst h
      exact ⟨[], rfl, by simp, x, q, rfl, by omega⟩

theorem dropLate_append {now : Int} {late : List (TS α)} {s : TS α} {r : List (TS α)} (h : ∀ x ∈ late, x.time < now)
    (hs : now ≤ s.time) : dropLate now (late ++ s :: r) = some (s :: r) := by
  induction late with
  | nil => simp [dropLate]; omega
  | cons x late ih =>
    have hx := h x (by simp)
    simp only [List.cons_append, dropLate, hx, if_true]
    exact ih (fun y hy => h y (by simp [hy]))

/-- What `streamSync` does when it returns: either it fills the whole slice with silence and consumed only NaN
markers, or it writes nothing, consumed NaN markers and then overdue samples, the first of which was overdue by the
length of the whole slice. -/
theorem sync_spec {rate len : Nat} {now : Int} {q : List (TS α)} {n : Nat} {d : Bool} {r : List (TS α)}
    (h : streamSync rate len now q = some (n, d, r)) :
    (d = false ∧ n = len ∧ ∃ nans s r', q = nans ++ r ∧ r = s :: r' ∧ (∀ x ∈ nans, x.val = none) ∧ s.val.isSome ∧
      now < s.time + samplesDuration rate len) ∨
    (d = true ∧ n = 0 ∧ ∃ nans late s r' f tl, q = nans ++ (late ++ r) ∧ r = s :: r' ∧ late ++ r = f :: tl ∧
      (∀ x ∈ nans, x.val = none) ∧ (∀ x ∈ late, x.time < now) ∧ now ≤ s.time ∧ f.val.isSome ∧
      f.time + samplesDuration rate len ≤ now) := by
  simp only [streamSync] at h
  split at h
  · simp at h
  · rename_i s q' hs
    obtain ⟨nans, h1, h2, h3⟩ := skipNaN_spec hs
    have hD := dur_nonneg rate len
    split at h
    · rename_i hlt
      simp at h
      obtain ⟨rfl, rfl, rfl⟩ := h
      exact .inl ⟨rfl, rfl, nans, s, q', h1, rfl, h2, h3, hlt⟩
    · split at h
      · omega
      · split at h
        · rename_i r' hr
          simp at h
          obtain ⟨rfl, rfl, rfl⟩ := h
          obtain ⟨late, g1, g2, s', r'', g3, g4⟩ := dropLate_spec hr
          refine .inr ⟨rfl, rfl, nans, late, s', r'', s, q', by rw [h1, g1], g3, g1.symm, h2, g2, g4, h3, by omega⟩
        · simp at h

theorem direct_spec {k : Nat} {q : List (TS α)} {vs : List α} {d : Bool} {r : List (TS α)}
    (h : streamDirect k q = some (vs, d, r)) :
    (d = false ∧ vs.length = k ∧ ∃ p, q = p ++ r ∧ p.map (·.val) = vs.map some) ∨
    (d = true ∧ vs.length < k ∧ ∃ p x, q = p ++ x :: r ∧ p.map (·.val) = vs.map some ∧ x.val = none) := by
  induction k generalizing q vs with
  | zero =>
    simp [streamDirect] at h
    obtain ⟨rfl, rfl, rfl⟩ := h
    exact .inl ⟨rfl, rfl, [], rfl, rfl⟩
  | succ k ih =>
    cases q with
    | nil => simp [streamDirect] at h
    | cons x q =>
      simp only [streamDirect] at h
      split at h
      · rename_i hx
        simp at h
        obtain ⟨rfl, rfl, rfl⟩ := h
        exact .inr ⟨rfl, by simp, [], x, rfl, rfl, hx⟩
      · rename_i v hx
        split at h
        · rename_i o d' r' h'
          simp at h
          obtain ⟨rfl, rfl, rfl⟩ := h
          rcases ih h' with ⟨a, b, p, c, e⟩ | ⟨a, b, p, y, c, e, f⟩
          · exact .inl ⟨a, by simp [b], x :: p, by simp [c], by simp [hx, e]⟩
          · exact .inr ⟨a, by simp [b], x :: p, y, by simp [c], by simp [hx, e], f⟩
        · simp at h

/-- Big-step reading of `stream`, used for induction. -/
inductive Run (rate : Nat) : Nat → Int → Bool → List (TS α) → List (Option α) → Bool → List (TS α) → Prop
  | done (now sy q) : Run rate 0 now sy q [] sy q
  | wait {len now q} {nans r' : List (TS α)} {s : TS α} (h0 : len ≠ 0) (h1 : q = nans ++ s :: r') (h2 : ∀ x ∈ nans, x.val = none)
      (h3 : s.val.isSome) (h4 : now < s.time + samplesDuration rate len) :
      Run rate len now true q (List.replicate len none) true (s :: r')
  | start {len now q} {nans late r' tl : List (TS α)} {s f : TS α} {out sy q'} (h0 : len ≠ 0) (h1 : q = nans ++ (late ++ s :: r'))
      (h2 : ∀ x ∈ nans, x.val = none) (h3 : ∀ x ∈ late, x.time < now) (h4 : now ≤ s.time)
      (h5 : late ++ s :: r' = f :: tl) (h6 : f.val.isSome) (h7 : f.time + samplesDuration rate len ≤ now)
      (h8 : Run rate len now false (s :: r') out sy q') : Run rate len now true q out sy q'
  | play {len now q} {vs : List α} {r p : List (TS α)} (h0 : len ≠ 0) (h1 : q = p ++ r) (h2 : p.map (·.val) = vs.map some)
      (h3 : vs.length = len) : Run rate len now false q (vs.map some) false r
  | stop {len now q} {vs : List α} {r p : List (TS α)} {x : TS α} {out sy q'} (h0 : len ≠ 0) (h1 : q = p ++ x :: r) (h2 : p.map (·.val) = vs.map some)
      (h3 : vs.length < len) (h4 : x.val = none)
      (h5 : Run rate (len - vs.length) (now + samplesDuration rate vs.length) true r out sy q') :
      Run rate len now false q (vs.map some ++ out) sy q'

theorem run_of_stream {rate : Nat} : ∀ (m len : Nat) (now : Int) (sy : Bool) (q : List (TS α)) out sy' r,
    2 * q.length + (if sy then 1 else 0) ≤ m →
    stream rate len now sy q = some (out, sy', r) → Run rate len now sy q out sy' r := by
  intro m
  induction m with
  | zero =>
    intro len now sy q out sy' r hm h
    have hq : q = [] := by
      cases q with
      | nil => rfl
      | cons a q => simp at hm
    have hs : sy = false := by cases sy with
      | false => rfl
      | true => simp at hm
    subst hq; subst hs
    rw [stream] at h
    split at h
    · rename_i h0
      simp at h
      obtain ⟨rfl, rfl, rfl⟩ := h
      rw [h0]
      exact .done _ _ _
    · rename_i h0
      obtain ⟨k, rfl⟩ : ∃ k, len = k + 1 := ⟨len - 1, by omega⟩
      simp [streamDirect] at h
  | succ m ih =>
    intro len now sy q out sy' r hm h
    rw [stream] at h
    split at h
    · rename_i h0
      simp at h
      obtain ⟨rfl, rfl, rfl⟩ := h
      rw [h0]
      exact .done _ _ _
    · rename_i h0
      split at h
      · rename_i hsy
        subst hsy
        split at h
        · simp at h
        · rename_i n d r1 hs
          rcases sync_spec hs with ⟨rfl, rfl, nans, s, r', g1, g2, g3, g4, g5⟩ |
            ⟨rfl, rfl, nans, late, s, r', f, tl, g1, g2, g3, g4, g5, g6, g7, g8⟩
          · simp at h
            obtain ⟨rfl, rfl, rfl⟩ := h
            subst g2
            exact .wait h0 g1 g3 g4 g5
          · simp only [if_true] at h
            split at h
            · simp at h
            · split at h
              · simp at h
              · rename_i o sy2 q2 hrec
                have hl := streamSync_len _ _ _ _ _ _ _ hs
                rw [Nat.sub_zero, dur_zero, Int.add_zero] at hrec
                have := ih _ _ _ _ _ _ _ (by simp at hm ⊢; omega) hrec
                simp at h
                obtain ⟨rfl, rfl, rfl⟩ := h
                subst g2
                exact .start h0 g1 g4 g5 g6 g3 g7 g8 this
      · rename_i hsy
        have hsy : sy = false := by simpa using hsy
        subst hsy
        split at h
        · simp at h
        · rename_i vs d r1 hs
          rcases direct_spec hs with ⟨rfl, g1, p, g2, g3⟩ | ⟨rfl, g1, p, x, g2, g3, g4⟩
          · simp at h
            obtain ⟨rfl, rfl, rfl⟩ := h
            exact .play h0 g2 g3 g1
          · simp only [dite_true] at h
            split at h
            · simp at h
            · split at h
              · simp at h
              · rename_i o sy2 q2 hrec
                have hl := (streamDirect_len _ _ _ _ _ hs).1 rfl
                have := ih _ _ _ _ _ _ _ (by simp at hm ⊢; omega) hrec
                simp at h
                obtain ⟨rfl, rfl, rfl⟩ := h
                exact .stop h0 g2 g3 g1 g4 this

theorem stream_run {rate len : Nat} {now : Int} {sy : Bool} {q : List (TS α)} {out sy' r}
    (h : stream rate len now sy q = some (out, sy', r)) : Run rate len now sy q out sy' r :=
  run_of_stream _ len now sy q out sy' r (Nat.le_refl _) h

end MS.Streamer

namespace MS.Streamer

variable {α : Type}

theorem direct_more {k : Nat} {q : List (TS α)} {vs d r} (more : List (TS α))
    (h : streamDirect k q = some (vs, d, r)) : streamDirect k (q ++ more) = some (vs, d, r ++ more) := by
  induction k generalizing q vs with
  | zero => simp [streamDirect] at h; obtain ⟨rfl, rfl, rfl⟩ := h; simp [streamDirect]
  | succ k ih =>
    cases q with
    | nil => simp [streamDirect] at h
    | cons x q =>
      simp only [streamDirect, List.cons_append] at h ⊢
      split at h
      · simp at h; obtain ⟨rfl, rfl, rfl⟩ := h; simp
      · split at h
        · rename_i o d' r' h'
          simp at h; obtain ⟨rfl, rfl, rfl⟩ := h
          rw [ih h']
        · simp at h

theorem sync_more {rate len : Nat} {now : Int} {q : List (TS α)} {n d r} (more : List (TS α))
    (h : streamSync rate len now q = some (n, d, r)) :
    streamSync rate len now (q ++ more) = some (n, d, r ++ more) := by
  rcases sync_spec h with ⟨rfl, rfl, nans, s, r', g1, g2, g3, g4, g5⟩ |
    ⟨rfl, rfl, nans, late, s, r', f, tl, g1, g2, g3, g4, g5, g6, g7, g8⟩
  · subst g2; subst g1
    simp only [streamSync]
    rw [List.append_assoc, List.cons_append, skipNaN_append g3 g4]
    simp [g5]
  · subst g1
    have hD := dur_nonneg rate len
    simp only [streamSync]
    rw [g3, List.append_assoc, List.cons_append, skipNaN_append g4 g7]
    simp only
    rw [if_neg (by omega), if_neg (by omega), ← List.cons_append, ← g3, g2, List.append_assoc, List.cons_append,
      dropLate_append g5 g6]

/-- Samples that arrive later do not change what a `Stream` call that has returned did: a blocked call is the same
call continued when the samples are there. -/
theorem stream_more {rate : Nat} (more : List (TS α)) : ∀ (m len : Nat) (now : Int) (sy : Bool) (q : List (TS α)) out sy' r,
    2 * q.length + (if sy then 1 else 0) ≤ m →
    stream rate len now sy q = some (out, sy', r) →
    stream rate len now sy (q ++ more) = some (out, sy', r ++ more) := by
  intro m
  induction m with
  | zero =>
    intro len now sy q out sy' r hm h
    have hq : q = [] := by
      cases q with
      | nil => rfl
      | cons a q => simp at hm
    have hs : sy = false := by cases sy with
      | false => rfl
      | true => simp at hm
    subst hq; subst hs
    rw [stream] at h ⊢
    split at h
    · rename_i h0
      simp at h
      obtain ⟨rfl, rfl, rfl⟩ := h
      simp [h0]
    · rename_i h0
      obtain ⟨k, rfl⟩ : ∃ k, len = k + 1 := ⟨len - 1, by omega⟩
      simp [streamDirect] at h
  | succ m ih =>
    intro len now sy q out sy' r hm h
    rw [stream] at h ⊢
    split at h
    · rename_i h0
      simp at h
      obtain ⟨rfl, rfl, rfl⟩ := h
      simp [h0]
    · rename_i h0
      rw [if_neg h0]
      split at h
      · rename_i hsy
        subst hsy
        rw [dif_pos rfl]
        split at h
        · simp at h
        · rename_i n d r1 hs
          have hm2 := sync_more more hs
          split
          · rename_i hx; rw [hm2] at hx; simp at hx
          · rename_i n2 d2 r2 hx
            rw [hm2] at hx
            simp at hx
            obtain ⟨rfl, rfl, rfl⟩ := hx
            cases d with
            | false =>
              simp at h
              obtain ⟨rfl, rfl, rfl⟩ := h
              simp
            | true =>
              simp only [if_true] at h ⊢
              split at h
              · simp at h
              · rename_i hne
                split at h
                · simp at h
                · rename_i o sy2 q2 hrec
                  have hl := streamSync_len _ _ _ _ _ _ _ hs
                  have := ih _ _ _ _ _ _ _ (by simp at hm ⊢; omega) hrec
                  rw [this]
                  simp at h
                  obtain ⟨rfl, rfl, rfl⟩ := h
                  simp [hne]
      · rename_i hsy
        have hsy : sy = false := by simpa using hsy
        subst hsy
        rw [dif_neg (by simp)]
        split at h
        · simp at h
        · rename_i vs d r1 hs
          have hm2 := direct_more more hs
          split
          · rename_i hx; rw [hm2] at hx; simp at hx
          · rename_i n2 d2 r2 hx
            rw [hm2] at hx
            simp at hx
            obtain ⟨rfl, rfl, rfl⟩ := hx
            cases d with
            | false =>
              simp at h
              obtain ⟨rfl, rfl, rfl⟩ := h
              simp
            | true =>
              simp only [dite_true] at h ⊢
              split at h
              · simp at h
              · rename_i hne
                split at h
                · simp at h
                · rename_i o sy2 q2 hrec
                  have hl := (streamDirect_len _ _ _ _ _ hs).1 rfl
                  have := ih _ _ _ _ _ _ _ (by simp at hm ⊢; omega) hrec
                  rw [this]
                  simp at h
                  obtain ⟨rfl, rfl, rfl⟩ := h
                  simp [hne]

end MS.Streamer
