import Verif.Model.Fill
/-!
# Property C11: chunks cut the sample stream without gaps or overlaps
-/
namespace MS.Fill

variable {α : Type}

/-- Specification: the chunks are consecutive windows of the pushed samples starting at `from`: each carries its
first index, the low values and the high values of exactly the samples of its window. -/
def Windows (samples : List (α × α)) : Nat → List (Nat × List α × List α) → Prop
  | _, [] => True
  | start, (k, low, high) :: rest =>
    k = start ∧ low.length = high.length ∧
    low = ((samples.drop start).take low.length).map Prod.fst ∧
    high = ((samples.drop start).take low.length).map Prod.snd ∧
    Windows samples (start + low.length) rest

/-- What the two `Fill` goroutines have read so far. -/
def curLow (s : St α) : List α := match s.cur with | some (_, lo, _) => lo | none => []
def curHigh (s : St α) : List α := match s.cur with | some (_, _, hi) => hi | none => []

/-- Invariant. -/
structure Inv (s : St α) : Prop where
  low : (s.samples.map Prod.fst).drop s.readIdx = curLow s ++ s.lowQ
  high : (s.samples.map Prod.snd).drop s.readIdx = curHigh s ++ s.highQ ++ s.pend.toList
  idx : s.readIdx ≤ s.samples.length
  win : Windows s.samples 0 s.chunks
  sum : (s.chunks.map (fun c => c.2.1.length)).sum = s.readIdx
  got : ∀ n lo hi, s.cur = some (n, lo, hi) → lo.length ≤ n ∧ hi.length ≤ n
  capL : s.lowQ.length ≤ s.cap
  capH : s.highQ.length ≤ s.cap

theorem windows_append {samples : List (α × α)} {x : α × α} {start : Nat} {cs : List (Nat × List α × List α)}
    (hb : start + (cs.map (fun c => c.2.1.length)).sum ≤ samples.length) (h : Windows samples start cs) :
    Windows (samples ++ [x]) start cs := by
  induction cs generalizing start with
  | nil => trivial
  | cons c cs ih =>
    obtain ⟨k, low, high⟩ := c
    simp only [List.map_cons, List.sum_cons] at hb
    obtain ⟨h1, h2, h3, h4, h5⟩ := h
    have hd : ((samples ++ [x]).drop start).take low.length = (samples.drop start).take low.length := by
      rw [List.drop_append_of_le_length (by omega), List.take_append_of_le_length (by simp; omega)]
    refine ⟨h1, h2, by rw [hd]; exact h3, by rw [hd]; exact h4, ih (by omega) h5⟩

theorem windows_snoc {samples : List (α × α)} {start : Nat} {cs : List (Nat × List α × List α)}
    {low high : List α} (h : Windows samples start cs)
    (hl : low.length = high.length)
    (h1 : low = ((samples.drop (start + (cs.map (fun c => c.2.1.length)).sum)).take low.length).map Prod.fst)
    (h2 : high = ((samples.drop (start + (cs.map (fun c => c.2.1.length)).sum)).take low.length).map Prod.snd) :
    Windows samples start (cs ++ [(start + (cs.map (fun c => c.2.1.length)).sum, low, high)]) := by
  induction cs generalizing start with
  | nil => exact ⟨rfl, hl, by simpa using h1, by simpa using h2, trivial⟩
  | cons c cs ih =>
    obtain ⟨k, lo, hi⟩ := c
    obtain ⟨a1, a2, a3, a4, a5⟩ := h
    simp only [List.map_cons, List.sum_cons, ← Nat.add_assoc] at h1 h2 ⊢
    exact ⟨a1, a2, a3, a4, ih a5 h1 h2⟩

theorem inv_init (cap : Nat) : Inv (init (α := α) cap) := by
  constructor <;> simp [init, curLow, curHigh, Windows]

theorem inv_step {s s' : St α} {a : Act α} (hi : Inv s) (h : step s a = some s') : Inv s' := by
  obtain ⟨cap, lowQ, highQ, pend, cur, readIdx, samples, chunks⟩ := s
  obtain ⟨h1, h2, h3, h4, h5, h6, h7, h8⟩ := hi
  simp only [curLow, curHigh] at h1 h2 h3 h4 h5 h6 h7 h8
  cases a with
  | pushLow l hh =>
    simp only [step] at h
    split at h
    · split at h
      · rename_i hlt
        injection h with h; subst h
        refine ⟨?_, ?_, by simp; omega, windows_append (by rw [Nat.zero_add, h5]; exact h3) h4, h5, h6,
          by simp; omega, h8⟩
        · simp only [List.map_append, List.map_cons, List.map_nil, curLow]
          rw [List.drop_append_of_le_length (by simpa using h3), h1, List.append_assoc]
        · simp only [List.map_append, List.map_cons, List.map_nil, curHigh]
          rw [List.drop_append_of_le_length (by simpa using h3), h2]
          simp
      · simp at h
    · simp at h
  | pushHigh =>
    simp only [step] at h
    split at h
    · split at h
      · injection h with h; subst h
        refine ⟨h1, ?_, h3, h4, h5, h6, h7, by simp; omega⟩
        simp only [curHigh]
        rw [h2]; simp
      · simp at h
    · simp at h
  | fill n =>
    simp only [step] at h
    split at h
    · injection h with h; subst h
      refine ⟨h1, h2, h3, h4, h5, ?_, h7, h8⟩
      intro n' lo hi he
      simp at he
      obtain ⟨_, rfl, rfl⟩ := he
      simp
    · simp at h
  | readLow =>
    simp only [step] at h
    split at h
    · rename_i n lo hi x q
      split at h
      · rename_i hlt
        injection h with h; subst h
        refine ⟨by simp only [curLow]; rw [h1]; simp, h2, h3, h4, h5, ?_, by simp at h7 ⊢; omega, h8⟩
        intro n' lo' hi' he
        simp at he
        obtain ⟨rfl, rfl, rfl⟩ := he
        have := h6 _ _ _ rfl
        simp; omega
      · simp at h
    · simp at h
  | readHigh =>
    simp only [step] at h
    split at h
    · rename_i n lo hi x q
      split at h
      · rename_i hlt
        injection h with h; subst h
        refine ⟨h1, by simp only [curHigh]; rw [h2]; simp, h3, h4, h5, ?_, h7, by simp at h8 ⊢; omega⟩
        intro n' lo' hi' he
        simp at he
        obtain ⟨rfl, rfl, rfl⟩ := he
        have := h6 _ _ _ rfl
        simp; omega
      · simp at h
    · simp at h
  | ret =>
    simp only [step] at h
    split at h
    · rename_i n lo hi
      split at h
      · rename_i hc
        injection h with h; subst h
        simp only at h1 h2
        have hl1 := congrArg List.length h1
        simp at hl1
        have hlow : lo = ((samples.drop readIdx).take lo.length).map Prod.fst := by
          rw [List.map_take, List.map_drop, h1]; simp
        have hhigh : hi = ((samples.drop readIdx).take lo.length).map Prod.snd := by
          rw [List.map_take, List.map_drop, h2, hc.1, ← hc.2]; simp [List.append_assoc]
        refine ⟨?_, ?_, by simp only; omega, ?_, ?_, by simp, h7, h8⟩
        · simp only [curLow]
          rw [← List.drop_drop, h1]; simp
        · simp only [curHigh]
          rw [← List.drop_drop, h2, hc.1, ← hc.2]; simp [List.append_assoc]
        · have := windows_snoc (low := lo) (high := hi) h4 (by omega)
          simp only [Nat.zero_add, h5] at this
          exact this hlow hhigh
        · simp [h5]
      · simp at h
    · simp at h

theorem inv_run {s s' : St α} {acts : List (Act α)} (hi : Inv s) (h : run s acts = some s') : Inv s' := by
  induction acts generalizing s with
  | nil => simp [run] at h; subst h; exact hi
  | cons a as ih =>
    simp only [run] at h
    split at h
    · rename_i s1 h1
      exact ih (inv_step hi h1) h
    · simp at h

/-- Specification: the samples pushed in a schedule. -/
def pushes : List (Act α) → List (α × α)
  | [] => []
  | .pushLow l h :: as => (l, h) :: pushes as
  | _ :: as => pushes as

theorem samples_eq {s s' : St α} {acts : List (Act α)} (h : run s acts = some s') :
    s'.samples = s.samples ++ pushes acts := by
  induction acts generalizing s with
  | nil => simp [run] at h; subst h; simp [pushes]
  | cons a as ih =>
    simp only [run] at h
    split at h
    · rename_i s1 h1
      rw [ih h]
      cases a with
      | pushLow l hh =>
        have : s1.samples = s.samples ++ [(l, hh)] := by simp only [step] at h1; grind
        rw [this]; simp [pushes]
      | _ =>
        have : s1.samples = s.samples := by simp only [step] at h1; grind
        rw [this]; simp [pushes]
    · simp at h

/-- C11. Under every interleaving of the pusher and the two reading goroutines and for all chunk sizes, the chunks
returned by successive `Fill` calls are consecutive windows of the pushed samples: the first begins at sample 0, each
returns the index of its first sample, its low and high values are those of the same samples, and the next begins
where it ends. -/
theorem C11_chunks_are_windows (cap : Nat) (acts : List (Act α)) (s : St α) (h : run (init cap) acts = some s) :
    Windows (pushes acts) 0 s.chunks := by
  have hi := inv_run (inv_init cap) h
  have hs := samples_eq h
  simp only [init, List.nil_append] at hs
  rw [← hs]
  exact hi.win

/-- C11, every chunk has the requested length (Fill returns only when both slices are full). -/
theorem C11_chunk_length (s s' : St α) (n : Nat) (lo hi : List α) (hc : s.cur = some (n, lo, hi))
    (h : step s .ret = some s') :
    ∃ low high, s'.chunks = s.chunks ++ [(s.readIdx, low, high)] ∧ low.length = n ∧ high.length = n := by
  simp only [step, hc] at h
  split at h
  · rename_i hx
    injection h with h; subst h
    exact ⟨lo, hi, rfl, hx.1, hx.2⟩
  · simp at h

/-- C11, no deadlock between the pusher and `Fill`: while a `Fill` is running and the pusher has more samples, with a
buffer of at least one sample, some step other than a new call is possible. -/
theorem C11_no_deadlock (cap : Nat) (hcap : 1 ≤ cap) (acts : List (Act α)) (s : St α)
    (h : run (init cap) acts = some s) (hf : s.cur.isSome) (l hh : α) :
    (step s (.pushLow l hh)).isSome ∨ (step s .pushHigh).isSome ∨ (step s .readLow).isSome ∨
    (step s .readHigh).isSome ∨ (step s .ret).isSome := by
  have hi := inv_run (inv_init cap) h
  have hc : s.cap = cap := by
    have : ∀ (acts : List (Act α)) (s s' : St α), run s acts = some s' → s'.cap = s.cap := by
      intro acts
      induction acts with
      | nil => intro s s' h; simp [run] at h; rw [h]
      | cons a as ih =>
        intro s s' h
        simp only [run] at h
        split at h
        · rename_i s1 h1
          have : s1.cap = s.cap := by
            cases a <;> simp only [step] at h1 <;> grind
          rw [ih s1 s' h, this]
        · simp at h
    exact this acts _ _ h
  obtain ⟨cap', lowQ, highQ, pend, cur, readIdx, samples, chunks⟩ := s
  simp only at hc hf
  subst hc
  obtain ⟨h1, h2, h3, _, _, h6, h7, h8⟩ := hi
  simp only [curLow, curHigh] at h1 h2 h3 h6 h7 h8
  obtain ⟨⟨n, lo, hi⟩, rfl⟩ := Option.isSome_iff_exists.1 hf
  simp only at h1 h2
  have g := h6 n lo hi rfl
  have hl1 := congrArg List.length h1
  have hl2 := congrArg List.length h2
  simp at hl1 hl2
  by_cases hL : lo.length < n ∧ lowQ ≠ []
  · right; right; left
    obtain ⟨hL1, hL2⟩ := hL
    cases lowQ with
    | nil => exact absurd rfl hL2
    | cons x q => simp [step, hL1]
  by_cases hH : hi.length < n ∧ highQ ≠ []
  · right; right; right; left
    obtain ⟨hH1, hH2⟩ := hH
    cases highQ with
    | nil => exact absurd rfl hH2
    | cons x q => simp [step, hH1]
  by_cases hR : lo.length = n ∧ hi.length = n
  · right; right; right; right; simp [step, hR.1, hR.2]
  cases pend with
  | none =>
    left
    simp at hl2
    have hlow : lowQ.length < cap' := by
      by_cases hx : lo.length < n
      · have : lowQ = [] := Classical.byContradiction fun hne => hL ⟨hx, hne⟩
        rw [this]; simp; omega
      · have hx2 : hi.length < n := by omega
        have : highQ = [] := Classical.byContradiction fun hne => hH ⟨hx2, hne⟩
        rw [this] at hl2; simp at hl2; omega
    simp [step, hlow]
  | some v =>
    right; left
    simp at hl2
    have hhigh : highQ.length < cap' := by
      by_cases hx : hi.length < n
      · have : highQ = [] := Classical.byContradiction fun hne => hH ⟨hx, hne⟩
        rw [this]; simp; omega
      · have hx2 : lo.length < n := by omega
        have : lowQ = [] := Classical.byContradiction fun hne => hL ⟨hx2, hne⟩
        rw [this] at hl1; simp at hl1; omega
    simp [step, hhigh]

/-- Non-vacuity: two chunks of different sizes with the reads out of step. -/
example : ∃ s, run (init 2) [.pushLow 1 2, .fill 2, .pushHigh, .pushLow 3 4, .readHigh, .pushHigh, .readHigh, .readLow,
    .pushLow 5 6, .readLow, .ret, .fill 1, .pushHigh, .readLow, .readHigh, .ret] = some s ∧
    s.chunks = [(0, [1, 3], [2, 4]), (2, [5], [6])] := ⟨_, rfl, rfl⟩

end MS.Fill
