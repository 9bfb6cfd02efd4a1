import Verif.Model.SampleQueue
/-! Helper lemmas for the sample queue: index arithmetic and the inductive invariants. -/
namespace MS.SampleQueue

variable {α : Type}

theorem mod_two_mul_mod (n c : Nat) : (n % (2 * c)) % c = n % c :=
  Nat.mod_mod_of_dvd n ⟨2, by omega⟩

/-- Two residues modulo `m` that are less than `m` apart agree only if the numbers agree. -/
theorem eq_of_mod_eq {m a b : Nat} (h : a % m = b % m) (h1 : a ≤ b) (h2 : b < a + m) : a = b := by
  have hd : (b - a) % m = 0 := Nat.sub_mod_eq_zero_of_mod_eq h.symm
  have : b - a < m := by omega
  rw [Nat.mod_eq_of_lt this] at hd
  omega

theorem full_iff {cap nA nR : Nat} (hc : 0 < cap) (h1 : nR ≤ nA) (h2 : nA ≤ nR + cap) :
    full cap (nA % (2 * cap)) (nR % (2 * cap)) = true ↔ nA = nR + cap := by
  unfold full
  rw [beq_iff_eq, Nat.mod_add_mod]
  constructor
  · intro h
    exact eq_of_mod_eq h.symm h2 (by omega)
  · intro h
    rw [h]

theorem empty_iff {cap nA nR : Nat} (hc : 0 < cap) (h1 : nR ≤ nA) (h2 : nA ≤ nR + cap) :
    empty (nA % (2 * cap)) (nR % (2 * cap)) = true ↔ nA = nR := by
  unfold empty
  rw [beq_iff_eq]
  constructor
  · intro h
    exact (eq_of_mod_eq h.symm h1 (by omega)).symm
  · intro h
    rw [h]

theorem inc_mod (cap n : Nat) : inc cap (n % (2 * cap)) = (n + 1) % (2 * cap) := by
  unfold inc
  rw [Nat.mod_add_mod]

theorem len_eq {cap nA nR : Nat} (hc : 0 < cap) (h1 : nR ≤ nA) (h2 : nA ≤ nR + cap) :
    len cap (nA % (2 * cap)) (nR % (2 * cap)) = (nA : Int) - nR := by
  unfold len
  obtain ⟨d, rfl⟩ : ∃ d, nA = nR + d := ⟨nA - nR, by omega⟩
  have hd : d ≤ cap := by omega
  have hr : nR % (2 * cap) < 2 * cap := Nat.mod_lt _ (by omega)
  have : (nR + d) % (2 * cap) = (nR % (2 * cap) + d) % (2 * cap) := by rw [Nat.mod_add_mod]
  rw [this]
  generalize nR % (2 * cap) = t at *
  by_cases hlt : t + d < 2 * cap
  · rw [Nat.mod_eq_of_lt hlt]
    rw [if_pos (by omega)]
    omega
  · have : (t + d) % (2 * cap) = t + d - 2 * cap := by
      rw [Nat.mod_eq_sub_mod (by omega)]
      exact Nat.mod_eq_of_lt (by omega)
    rw [this, if_neg (by omega)]
    omega

theorem slot_ne {cap i nA : Nat} (h1 : i < nA) (h2 : nA < i + cap) : i % cap ≠ nA % cap := by
  intro h
  have := eq_of_mod_eq h (by omega) h2
  omega

/-- Number of completed head updates, from the adder's program counter and the number of returned Adds. -/
def cntA (a : PcA α) (done : Nat) : Nat :=
  match a with
  | .bcast => done + 1
  | _ => done

/-- Number of completed tail updates. -/
def cntR (r : PcR α) (rets : List α) : Nat :=
  match r with
  | .bcast _ => rets.length + 1
  | _ => rets.length

/-- The argument of the running Add call, if its head update is still to come. -/
def pend (a : PcA α) : List α :=
  match a with
  | .idle => []
  | .lock x => [x]
  | .check x => [x]
  | .presleep x => [x]
  | .asleep x => [x]
  | .write x => [x]
  | .incr x => [x]
  | .bcast => []

/-- Safety invariant: ring indices and slots against the history. -/
structure Inv (s : State α) : Prop where
  cap : 0 < s.cap
  le : cntR s.r s.rets ≤ cntA s.a s.doneA
  ge : cntA s.a s.doneA ≤ cntR s.r s.rets + s.cap
  head : s.head = cntA s.a s.doneA % (2 * s.cap)
  tail : s.tail = cntR s.r s.rets % (2 * s.cap)
  calls : ∃ pre, s.calls = pre ++ pend s.a ∧ pre.length = cntA s.a s.doneA
  slots : ∀ i, cntR s.r s.rets ≤ i → i < cntA s.a s.doneA → s.calls[i]? = some (s.buf (i % s.cap))
  room : ∀ x, (s.a = .write x ∨ s.a = .incr x) → cntA s.a s.doneA < cntR s.r s.rets + s.cap
  written : ∀ x, s.a = .incr x → s.buf (cntA s.a s.doneA % s.cap) = x
  avail : ∀ k, s.r = .read k → cntR s.r s.rets < cntA s.a s.doneA
  availV : ∀ v, s.r = .incr v → cntR s.r s.rets < cntA s.a s.doneA ∧ s.calls[cntR s.r s.rets]? = some v
  bcastV : ∀ v, s.r = .bcast v → s.calls[s.rets.length]? = some v
  rets : s.rets <+: s.calls
  peeks : ∀ p ∈ s.peeks, s.calls[p.1]? = some p.2

theorem inv_init (cap : Nat) (zero : α) (h : 0 < cap) : Inv (init cap zero) := by
  constructor <;> simp [init, cntA, cntR, pend, h]

theorem getElem?_snoc_of_some {l : List α} {i : Nat} {v y : α} (h : l[i]? = some v) :
    (l ++ [y])[i]? = some v := by
  have hi : i < l.length := by
    rw [List.getElem?_eq_some_iff] at h
    exact h.1
  rw [List.getElem?_append_left hi, h]

theorem prefix_snoc_of_getElem? {l m : List α} {v : α} (h : l <+: m) (hv : m[l.length]? = some v) :
    l ++ [v] <+: m := by
  obtain ⟨t, rfl⟩ := h
  cases t with
  | nil => simp at hv
  | cons b t =>
    simp at hv
    subst hv
    exact ⟨t, by simp⟩

theorem inv_callAdd {s s' : State α} {x : α} (hi : Inv s) (h : step s (.callAdd x) = some s') : Inv s' := by
  obtain ⟨cap, buf, head, tail, owner, a, r, calls, doneA, rets, peeks⟩ := s
  obtain ⟨h1, h2, h3, h4, h5, ⟨pre, h6, h7⟩, h8, h9, h10, h11, h12, h13, h14, h15⟩ := hi
  cases a <;> simp [step] at h
  subst h
  simp only [cntA, pend, List.append_nil] at *
  refine ⟨h1, h2, h3, h4, h5, ⟨calls, rfl, by rw [h6, h7]; rfl⟩, ?_, ?_, ?_, h11, ?_, ?_, ?_, ?_⟩
  · intro i hi1 hi2; exact getElem?_snoc_of_some (h8 i hi1 hi2)
  · simp
  · simp
  · intro v hv; exact ⟨(h12 v hv).1, getElem?_snoc_of_some (h12 v hv).2⟩
  · intro v hv; exact getElem?_snoc_of_some (h13 v hv)
  · exact h14.trans (List.prefix_append _ _)
  · intro p hp; exact getElem?_snoc_of_some (h15 p hp)

theorem inv_callR {s s' : State α} (hi : Inv s) (h : step s .callRemove = some s' ∨ step s .callPeek = some s') :
    Inv s' := by
  obtain ⟨cap, buf, head, tail, owner, a, r, calls, doneA, rets, peeks⟩ := s
  obtain ⟨h1, h2, h3, h4, h5, h6, h8, h9, h10, h11, h12, h13, h14, h15⟩ := hi
  rcases h with h | h <;> cases r <;> simp [step] at h <;> subst h <;>
    exact ⟨h1, h2, h3, h4, h5, h6, h8, h9, h10, by simp, by simp, by simp, h14, h15⟩

theorem cntR_wake (r : PcR α) (rets : List α) :
    cntR (wakeR r) rets = cntR r rets := by
  cases r <;> rfl

theorem cntA_wake (a : PcA α) (done : Nat) :
    cntA (wakeA a) done = cntA a done := by
  cases a <;> rfl

theorem pend_wake (a : PcA α) :
    pend (wakeA a) = pend a := by
  cases a <;> rfl

theorem inv_stepA {s s' : State α} (hi : Inv s) (h : step s .stepA = some s') : Inv s' := by
  obtain ⟨cap, buf, head, tail, owner, a, r, calls, doneA, rets, peeks⟩ := s
  obtain ⟨h1, h2, h3, h4, h5, ⟨pre, h6, h7⟩, h8, h9, h10, h11, h12, h13, h14, h15⟩ := hi
  cases a with
  | idle => simp [step] at h
  | lock x =>
    simp [step] at h
    obtain ⟨_, rfl⟩ := h
    exact ⟨h1, h2, h3, h4, h5, ⟨pre, h6, h7⟩, h8, by simp, by simp, h11, h12, h13, h14, h15⟩
  | check x =>
    simp [step] at h
    split at h <;> rename_i hf <;> injection h with h <;> subst h
    · exact ⟨h1, h2, h3, h4, h5, ⟨pre, h6, h7⟩, h8, by simp, by simp, h11, h12, h13, h14, h15⟩
    · refine ⟨h1, h2, h3, h4, h5, ⟨pre, h6, h7⟩, h8, ?_, by simp, h11, h12, h13, h14, h15⟩
      intro _ _
      simp only [cntA] at *
      rw [h4, h5, full_iff h1 h2 h3] at hf
      omega
  | presleep x =>
    simp [step] at h
    subst h
    exact ⟨h1, h2, h3, h4, h5, ⟨pre, h6, h7⟩, h8, by simp, by simp, h11, h12, h13, h14, h15⟩
  | asleep x => simp [step] at h
  | write x =>
    simp [step] at h
    subst h
    simp only [cntA] at *
    have hroom := h9 x (Or.inl rfl)
    have hslot : head % cap = doneA % cap := by rw [h4, mod_two_mul_mod]
    refine ⟨h1, h2, h3, h4, h5, ⟨pre, h6, h7⟩, ?_, ?_, ?_, h11, h12, h13, h14, h15⟩
    · intro i hi1 hi2
      simp only [cntA] at hi1 hi2 ⊢
      have hne : i % cap ≠ doneA % cap := slot_ne hi2 (by omega)
      simp only [hslot, if_neg hne]
      exact h8 i hi1 hi2
    · intro _ _; exact hroom
    · intro y hy
      injection hy with hy
      simp [cntA, hslot, hy]
  | incr x =>
    simp [step] at h
    subst h
    simp only [cntA, pend] at *
    have hroom := h9 x (Or.inr rfl)
    have hw := h10 x rfl
    refine ⟨h1, by simp only [cntA]; omega, by simp only [cntA]; omega, ?_, h5, ⟨calls, by simp [pend], by simp [h6, h7, cntA]⟩,
      ?_, by simp, by simp, ?_, ?_, h13, h14, h15⟩
    · simp only [cntA]; rw [h4, inc_mod]
    · intro i hi1 hi2
      simp only [cntA] at hi2
      by_cases hlt : i < doneA
      · exact h8 i hi1 hlt
      · have : i = doneA := by omega
        subst this
        show calls[i]? = some (buf (i % cap))
        rw [hw, h6, ← h7]
        simp
    · intro k hk; have := h11 k hk; simp only [cntA]; omega
    · intro v hv; have := h12 v hv; exact ⟨by simp only [cntA]; omega, this.2⟩
  | bcast =>
    simp [step] at h
    subst h
    simp only [cntA, pend] at *
    refine ⟨h1, ?_, ?_, ?_, ?_, ⟨pre, ?_, ?_⟩, ?_, by simp, by simp, ?_, ?_, ?_, h14, h15⟩ <;>
      simp only [cntA, pend, cntR_wake] <;> try assumption
    · intro k hk
      cases r <;> simp [wakeR] at hk <;> exact h11 _ (by rw [hk])
    · intro v hv
      cases r <;> simp [wakeR] at hv <;> exact h12 _ (by rw [hv])
    · intro v hv
      cases r <;> simp [wakeR] at hv <;> exact h13 _ (by rw [hv])

theorem inv_stepR {s s' : State α} (hi : Inv s) (h : step s .stepR = some s') : Inv s' := by
  obtain ⟨cap, buf, head, tail, owner, a, r, calls, doneA, rets, peeks⟩ := s
  obtain ⟨h1, h2, h3, h4, h5, h6, h8, h9, h10, h11, h12, h13, h14, h15⟩ := hi
  cases r with
  | idle => simp [step] at h
  | lock k =>
    simp [step] at h
    obtain ⟨_, rfl⟩ := h
    exact ⟨h1, h2, h3, h4, h5, h6, h8, h9, h10, by simp, by simp, by simp, h14, h15⟩
  | check k =>
    simp [step] at h
    split at h <;> rename_i hf <;> injection h with h <;> subst h
    · exact ⟨h1, h2, h3, h4, h5, h6, h8, h9, h10, by simp, by simp, by simp, h14, h15⟩
    · refine ⟨h1, h2, h3, h4, h5, h6, h8, h9, h10, ?_, by simp, by simp, h14, h15⟩
      intro _ _
      simp only [cntR] at *
      rw [h4, h5, empty_iff h1 h2 h3] at hf
      omega
  | presleep k =>
    simp [step] at h
    subst h
    exact ⟨h1, h2, h3, h4, h5, h6, h8, h9, h10, by simp, by simp, by simp, h14, h15⟩
  | asleep k => simp [step] at h
  | read k =>
    have hav := h11 k rfl
    simp only [cntR] at *
    have hslot : tail % cap = rets.length % cap := by rw [h5, mod_two_mul_mod]
    have hv := h8 rets.length (Nat.le_refl _) hav
    cases k with
    | remove =>
      simp [step] at h
      subst h
      refine ⟨h1, h2, h3, h4, h5, h6, h8, h9, h10, by simp, ?_, by simp, h14, h15⟩
      intro v hv'
      injection hv' with hv'
      subst hv'
      exact ⟨hav, by simp only [cntR, hslot]; exact hv⟩
    | peek =>
      simp [step] at h
      subst h
      refine ⟨h1, h2, h3, h4, h5, h6, h8, h9, h10, by simp, by simp, by simp, h14, ?_⟩
      intro p hp
      simp at hp
      rcases hp with hp | hp
      · exact h15 p hp
      · subst hp; simp only [hslot]; exact hv
  | incr v =>
    simp [step] at h
    subst h
    obtain ⟨hav, hv⟩ := h12 v rfl
    simp only [cntR] at *
    refine ⟨h1, by simp only [cntR]; omega, by simp only [cntR]; omega, h4, ?_, h6, ?_, ?_, h10, by simp, by simp, ?_, h14, h15⟩
    · simp only [cntR]; rw [h5, inc_mod]
    · intro i hi1 hi2
      simp only [cntR] at hi1
      exact h8 i (by omega) hi2
    · intro x hx; have := h9 x hx; simp only [cntR]; omega
    · intro w hw
      injection hw with hw
      subst hw
      exact hv
  | bcast v =>
    simp [step] at h
    subst h
    have hv := h13 v rfl
    simp only [cntR] at *
    refine ⟨h1, ?_, ?_, ?_, ?_, ?_, ?_, ?_, ?_, by simp, by simp, by simp, prefix_snoc_of_getElem? h14 hv, h15⟩ <;>
      simp only [cntA_wake, pend_wake, cntR, List.length_append, List.length_singleton] <;> try assumption
    · intro x hx
      apply h9 x
      cases a <;> simp [wakeA] at hx ⊢ <;> exact hx
    · intro x hx
      apply h10 x
      cases a <;> simp [wakeA] at hx ⊢ <;> exact hx

theorem inv_step {s s' : State α} {act : Act α} (hi : Inv s) (h : step s act = some s') : Inv s' := by
  cases act with
  | callAdd x => exact inv_callAdd hi h
  | callRemove => exact inv_callR hi (Or.inl h)
  | callPeek => exact inv_callR hi (Or.inr h)
  | stepA => exact inv_stepA hi h
  | stepR => exact inv_stepR hi h

theorem run_induct {P : State α → Prop} (hstep : ∀ s s' act, P s → step s act = some s' → P s')
    {s s' : State α} {acts : List (Act α)} (hp : P s) (h : run s acts = some s') : P s' := by
  induction acts generalizing s with
  | nil => simp [run] at h; subst h; exact hp
  | cons a as ih =>
    simp only [run] at h
    split at h
    · rename_i s1 h1
      exact ih (hstep _ _ _ hp h1) h
    · simp at h

theorem run_append (s : State α) (as bs : List (Act α)) :
    run s (as ++ bs) = (run s as).bind (fun s' => run s' bs) := by
  induction as generalizing s with
  | nil => rfl
  | cons a as ih =>
    simp only [List.cons_append, run]
    cases step s a with
    | none => rfl
    | some s1 => exact ih s1

theorem step_cap {s s' : State α} {act : Act α} (h : step s act = some s') : s'.cap = s.cap := by
  unfold step at h
  grind

/-- Lock ownership and sleeping invariant, for capacity at least 2. -/
structure LInv (s : State α) : Prop where
  ownA : s.owner = .adder ↔ (∃ x, s.a = .check x ∨ s.a = .presleep x)
  ownR : s.owner = .remover ↔ (∃ k, s.r = .check k ∨ s.r = .presleep k)
  preA : ∀ x, s.a = .presleep x → cntA s.a s.doneA = cntR s.r s.rets + s.cap ∨
    (cntA s.a s.doneA + 1 = cntR s.r s.rets + s.cap ∧ s.r ≠ .read .remove ∧ ∀ v, s.r ≠ .incr v)
  slpA : ∀ x, s.a = .asleep x → cntR s.r s.rets + s.cap ≤ cntA s.a s.doneA + 1 ∨ ∃ v, s.r = .bcast v
  preR : ∀ k, s.r = .presleep k → cntA s.a s.doneA = cntR s.r s.rets ∨
    (cntA s.a s.doneA = cntR s.r s.rets + 1 ∧ (∀ x, s.a ≠ .write x) ∧ ∀ x, s.a ≠ .incr x)
  slpR : ∀ k, s.r = .asleep k → cntA s.a s.doneA ≤ cntR s.r s.rets + 1 ∨ s.a = .bcast
  excl : ¬ ((∃ x, s.a = .presleep x ∨ s.a = .asleep x) ∧ (∃ k, s.r = .presleep k ∨ s.r = .asleep k))

theorem linv_init (cap : Nat) (zero : α) : LInv (init cap zero) := by
  constructor <;> simp [init]

set_option maxHeartbeats 1000000 in
theorem linv_stepR {s s' : State α} (h2 : 2 ≤ s.cap) (hi : Inv s) (hl : LInv s)
    (h : step s .stepR = some s') : LInv s' := by
  obtain ⟨cap, buf, head, tail, owner, a, r, calls, doneA, rets, peeks⟩ := s
  obtain ⟨i1, i2, i3, i4, i5, i6, i7, i8, i9, i10, i11, i12, i13, i14⟩ := hi
  clear i6 i7 i9 i12 i13 i14
  obtain ⟨l1, l2, l3, l4, l5, l6, l7⟩ := hl
  simp only at *
  have hf := full_iff i1 i2 i3
  have he := empty_iff i1 i2 i3
  rw [← i4, ← i5] at hf he
  clear i4 i5
  cases r <;> simp [step] at h
  case lock k =>
    obtain ⟨ho, rfl⟩ := h
    simp only [cntR] at *
    constructor <;> simp [cntR] <;> simp_all
  case check k =>
    split at h <;> rename_i hempty <;> injection h with h <;> subst h
    · simp only [cntR] at *
      have hn := he.1 hempty
      constructor <;> simp [cntR] <;> simp_all
      intro k hk; have := l4 k hk; subst hk; simp only [cntA] at *; omega
    · simp only [cntR] at *
      constructor <;> simp [cntR] <;> simp_all
  case read k =>
    have hav := i10 k rfl
    simp only [cntR] at *
    cases k <;> simp at h <;> subst h <;>
      constructor <;> simp [cntR] <;> cases a <;> simp [cntA] at * <;> (try simp_all) <;> omega
  case incr v =>
    subst h
    have hav := (i11 v rfl).1
    simp only [cntR] at *
    constructor <;> simp [cntR] <;> cases a <;> simp [cntA] at * <;> (try simp_all) <;> omega
  all_goals
    subst h
    simp only [cntR] at *
    constructor <;> simp [cntR] <;> cases a <;> simp [wakeA, cntA] at * <;> (try simp_all) <;> omega

set_option maxHeartbeats 1000000 in
theorem linv_step {s s' : State α} {act : Act α} (h2 : 2 ≤ s.cap) (hi : Inv s) (hl : LInv s)
    (h : step s act = some s') : LInv s' := by
  have hcap := h2
  have hI := hi
  have hL := hl
  have h0 := h
  obtain ⟨cap, buf, head, tail, owner, a, r, calls, doneA, rets, peeks⟩ := s
  obtain ⟨i1, i2, i3, i4, i5, i6, i7, i8, i9, i10, i11, i12, i13, i14⟩ := hi
  clear i6 i7 i9 i12 i13 i14
  obtain ⟨l1, l2, l3, l4, l5, l6, l7⟩ := hl
  simp only at h2 l1 l2 l3 l4 l5 l6 l7 i1 i2 i3 i4 i5 i8 i10 i11
  have hf := full_iff i1 i2 i3
  have he := empty_iff i1 i2 i3
  rw [← i4, ← i5] at hf he
  clear i4 i5
  cases act with
  | callAdd x =>
    cases a <;> simp [step] at h
    subst h
    simp only [cntA] at *
    constructor <;> simp [cntA] <;> simp_all
  | callRemove =>
    cases r <;> simp [step] at h
    subst h
    simp only [cntR] at *
    constructor <;> simp [cntR] <;> simp_all
  | callPeek =>
    cases r <;> simp [step] at h
    subst h
    simp only [cntR] at *
    constructor <;> simp [cntR] <;> simp_all
  | stepA =>
    cases a <;> simp [step] at h
    case lock x =>
      obtain ⟨ho, rfl⟩ := h
      simp only [cntA] at *
      constructor <;> simp [cntA] <;> simp_all
    case check x =>
      split at h <;> rename_i hfull <;> injection h with h <;> subst h
      · simp only [cntA] at *
        have hn := hf.1 hfull
        constructor <;> simp [cntA] <;> simp_all
        intro k hk; have := l6 k hk; omega
      · simp only [cntA] at *
        constructor <;> simp [cntA] <;> simp_all
    all_goals
      subst h
      simp only [cntA] at *
      try (have hroom := i8 _ (Or.inl rfl))
      constructor <;> simp [cntA] <;> cases r <;> simp [wakeR, cntR] at * <;> (try simp_all) <;> omega
  | stepR => exact linv_stepR hcap hI hL h0

end MS.SampleQueue
