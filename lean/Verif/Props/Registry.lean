import Verif.Model.Registry
import Verif.Props.Sender
/-!
# Property C104: a registered command is found, also while others are being registered
-/
set_option linter.unusedVariables false
namespace MS.Registry
open MS.Sender (Star)

variable {α : Type}

/-- Where `t`, once registered, is: at `q`, not before `lo`, moved by at most one place for each of the `H` commands
registered since. -/
def Placed (t : α) (p H lo : Nat) (cells : Nat → Option α) : W α → Nat → Prop
  | .idle, len => ∃ q, lo ≤ q ∧ q < len ∧ cells q = some t ∧ q ≤ p + H
  | .stored, len => ∃ q, lo ≤ q ∧ q < len ∧ cells q = some t ∧ q ≤ p + H
  | .sorting j, len => ∃ q, lo ≤ q ∧ q < len ∧ cells q = some t ∧ ((q < j ∧ q + 1 ≤ p + H) ∨ (j < q ∧ q ≤ p + H))
  | .half j x, len => ∃ q, lo ≤ q ∧ q < len ∧ cells q = some t ∧ ((q + 1 < j ∧ q + 1 ≤ p + H) ∨ (j ≤ q ∧ q ≤ p + H))

/-- The first index the lookup has not read of the current array. -/
def low : R α → Nat
  | .scan i _ none => i
  | _ => 0

def Inv (t : α) (n p : Nat) (s : St α) : Prop :=
  ∃ H, s.len = n + H ∧ s.len ≤ s.cap ∧ (s.w = .stored → s.len < s.cap) ∧
    (∀ j, s.w = .sorting j → j < s.len) ∧ (∀ j x, s.w = .half j x → j < s.len) ∧
    Placed t p H (low s.r) s.cells s.w s.len ∧
    (∀ i k old, s.r = .scan i k old → k + s.since = n + H ∧ s.since ≤ H) ∧
    (∀ i k f, s.r = .scan i k (some f) → ∃ q, i ≤ q ∧ f q = some t ∧ q ≤ p + H) ∧
    (s.r = .missing → n ≤ p + s.since)

theorem low_detach (f : Nat → Option α) (r : R α) : low (r.detach f) = 0 := by
  cases r with
  | scan i k old => cases old <;> rfl
  | _ => rfl

theorem placed_low {t : α} {p H lo : Nat} {cells : Nat → Option α} {w : W α} {len : Nat} (h : Placed t p H lo cells w len) :
    Placed t p H 0 cells w len := by
  cases w <;> (obtain ⟨q, q1, q2⟩ := h; exact ⟨q, Nat.zero_le _, q2⟩)

theorem placed_next {t : α} {p H lo : Nat} {cells : Nat → Option α} {w : W α} {len : Nat} (h : Placed t p H lo cells w len)
    (he : cells lo ≠ some t) : Placed t p H (lo + 1) cells w len := by
  have key : ∀ q, lo ≤ q → cells q = some t → lo + 1 ≤ q := by
    intro q h1 h2
    rcases Nat.lt_or_ge lo q with h | h
    · exact h
    · have : q = lo := by omega
      rw [this] at h2; exact absurd h2 he
  cases w <;> (obtain ⟨q, q1, q2, q3, q4⟩ := h; exact ⟨q, key q q1 q3, q2, q3, q4⟩)

theorem placed_bound {t : α} {p H lo : Nat} {cells : Nat → Option α} {w : W α} {len : Nat} (h : Placed t p H lo cells w len) :
    ∃ q, lo ≤ q ∧ q ≤ p + H := by
  cases w <;> (obtain ⟨q, q1, q2, q3, q4⟩ := h; exact ⟨q, q1, by omega⟩)

theorem inv_step {lt : Option α → Option α → Bool} {t : α} {n p : Nat} (a b : St α) (h : Inv t n p a)
    (hs : Step lt t a b) : Inv t n p b := by
  obtain ⟨H, h1, h2, h3, h4, h5, h6, h7, h8, h9⟩ := h
  cases hs with
  | store c cs hw ht hc =>
    refine ⟨H, h1, h2, fun _ => hc, by simp, by simp, ?_, h7, h8, h9⟩
    rw [hw] at h6
    obtain ⟨q, q1, q2, q3, q4⟩ := h6
    exact ⟨q, q1, q2, by simp only [upd]; rw [if_neg (by omega)]; exact q3, q4⟩
  | header hw =>
    rw [hw] at h6
    obtain ⟨q, q1, q2, q3, q4⟩ := h6
    refine ⟨H + 1, by simp only; omega, h3 hw, by simp, by simp, by simp, ?_, ?_, ?_, ?_⟩
    · exact ⟨q, q1, by simp only; omega, q3, .inl ⟨q2, by omega⟩⟩
    · intro i k old hr
      have hr' : a.r = .scan i k old := hr
      have := h7 i k old hr'
      simp only [hr', R.count]
      omega
    · intro i k f hr
      obtain ⟨q, r1, r2, r3⟩ := h8 i k f hr
      exact ⟨q, r1, r2, by omega⟩
    · intro hr
      have := h9 hr
      have hr' : a.r = .missing := hr
      simp only [hr', R.count]; exact this
  | realloc c cs cap hw ht hc hcap =>
    rw [hw] at h6
    obtain ⟨q, q1, q2, q3, q4⟩ := h6
    refine ⟨H + 1, by simp only; omega, by simp only; omega, by simp, by simp, by simp, ?_, ?_, ?_, ?_⟩
    · refine ⟨q, by rw [low_detach]; omega, by simp only; omega, ?_, .inl ⟨q2, by omega⟩⟩
      simp only [upd]
      rw [if_neg (by omega), if_pos q2]; exact q3
    · intro i k old hr
      simp only at hr
      cases har : a.r with
      | scan i' k' old' =>
        have := h7 i' k' old' har
        rw [har] at hr
        simp only [R.count]
        cases old' <;> simp only [R.detach, R.scan.injEq] at hr <;> omega
      | _ => rw [har] at hr; simp [R.detach] at hr
    · intro i k f hr
      simp only at hr
      cases har : a.r with
      | scan i' k' old' =>
        rw [har] at hr
        cases old' with
        | none =>
          simp only [R.detach, R.scan.injEq, Option.some.injEq] at hr
          obtain ⟨e1, e2, e3⟩ := hr
          rw [har] at q1
          refine ⟨q, by rw [← e1]; exact q1, by rw [← e3]; exact q3, by omega⟩
        | some f' =>
          simp only [R.detach, R.scan.injEq, Option.some.injEq] at hr
          obtain ⟨e1, e2, e3⟩ := hr
          obtain ⟨q, r1, r2, r3⟩ := h8 i' k' f' har
          exact ⟨q, by omega, by rw [← e3]; exact r2, by omega⟩
      | _ => rw [har] at hr; simp [R.detach] at hr
    · intro hr
      simp only at hr
      cases har : a.r with
      | scan i' k' old' => rw [har] at hr; cases old' <;> simp [R.detach] at hr
      | missing => have := h9 har; simp only [R.count]; exact this
      | _ => rw [har] at hr; simp [R.detach] at hr
  | swap j hw hl =>
    have hj := h4 _ hw
    rw [hw] at h6
    obtain ⟨q, q1, q2, q3, q4⟩ := h6
    refine ⟨H, h1, h2, by simp, by simp, by simp; omega, ?_, h7, h8, h9⟩
    rcases q4 with ⟨q4, q5⟩ | ⟨q4, q5⟩
    · by_cases hq : q = j
      · exact ⟨j + 1, by simp only; omega, by simp only; omega, by simp only [upd, if_pos]; rw [← hq]; exact q3, .inr ⟨by omega, by omega⟩⟩
      · exact ⟨q, q1, q2, by simp only [upd]; rw [if_neg (by omega)]; exact q3, .inl ⟨by omega, q5⟩⟩
    · exact ⟨q, q1, q2, by simp only [upd]; rw [if_neg (by omega)]; exact q3, .inr ⟨by omega, q5⟩⟩
  | swapped j x hw =>
    have hj := h5 _ _ hw
    rw [hw] at h6
    obtain ⟨q, q1, q2, q3, q4⟩ := h6
    refine ⟨H, h1, h2, by simp, by simp; omega, by simp, ?_, h7, h8, h9⟩
    exact ⟨q, q1, q2, by simp only [upd]; rw [if_neg (by omega)]; exact q3, by omega⟩
  | sorted j hw hl =>
    rw [hw] at h6
    obtain ⟨q, q1, q2, q3, q4⟩ := h6
    exact ⟨H, h1, h2, by simp, by simp, by simp, ⟨q, q1, q2, q3, by omega⟩, h7, h8, h9⟩
  | begin hr =>
    refine ⟨H, h1, h2, h3, h4, h5, ?_, ?_, by simp, by simp⟩
    · rw [hr] at h6; exact h6
    · intro i k old he
      simp only [R.scan.injEq] at he
      simp only; omega
  | hit i k old hr hi he =>
    refine ⟨H, h1, h2, h3, h4, h5, ?_, by simp, by simp, by simp⟩
    exact placed_low h6
  | pass i k old hr hi he =>
    refine ⟨H, h1, h2, h3, h4, h5, ?_, ?_, ?_, by simp⟩
    · rw [hr] at h6
      cases old with
      | some f => exact placed_low h6
      | none =>
        simp only [Option.getD_none] at he
        exact placed_next h6 he
    · intro i' k' old' e
      simp only [R.scan.injEq] at e
      have := h7 i k old hr
      simp only; omega
    · intro i' k' f e
      simp only [R.scan.injEq] at e
      obtain ⟨e1, e2, e3⟩ := e
      subst e3
      obtain ⟨q, r1, r2, r3⟩ := h8 i k f hr
      simp only [Option.getD_some] at he
      refine ⟨q, ?_, r2, r3⟩
      rcases Nat.lt_or_ge q i' with hlt | hge
      · have : q = i := by omega
        rw [this] at r2; exact absurd r2 he
      · exact hge
  | fail i k old hr hi =>
    refine ⟨H, h1, h2, h3, h4, h5, placed_low h6, by simp, by simp, ?_⟩
    intro _
    have hk := h7 i k old hr
    simp only
    cases old with
    | some f =>
      obtain ⟨q, r1, r2, r3⟩ := h8 i k f hr
      omega
    | none =>
      rw [hr] at h6
      obtain ⟨q, q1, q2⟩ := placed_bound h6
      simp only [low] at q1
      omega

/-- C104. Let `names` be registered, `t` at place `p` among them (0 is the first in the order of names). Whatever commands
are registered at the same time and however the steps fall: if a lookup does not find `t`, then while it looked, at least
as many commands were added as there were names from `t` on. -/
theorem C104_missed_only_if (lt : Option α → Option α → Bool) (names todo : List α) (cap : Nat) (hcap : names.length ≤ cap)
    (t : α) (p : Nat) (hp : names[p]? = some t) (s : St α) (h : Star (Step lt t) (St.start names todo cap) s)
    (hm : s.r = .missing) : (names.drop p).length ≤ s.since := by
  have hlt : p < names.length := by
    rcases Nat.lt_or_ge p names.length with h | h
    · exact h
    · rw [List.getElem?_eq_none h] at hp; simp at hp
  have hinv : Inv t names.length p s := by
    refine MS.Sender.Star.inv (P := Inv t names.length p) inv_step h ?_
    refine ⟨0, rfl, hcap, by simp [St.start], by simp [St.start], by simp [St.start], ?_, by simp [St.start],
      by simp [St.start], by simp [St.start]⟩
    exact ⟨p, by simp [St.start, low], hlt, hp, by omega⟩
  obtain ⟨H, _, _, _, _, _, _, _, _, h9⟩ := hinv
  have := h9 hm
  rw [List.length_drop]; omega

/-- C104, where it holds: a lookup during which no command is added (the current one may be put in its place) finds every
command registered before. -/
theorem C104_found_partial (lt : Option α → Option α → Bool) (names todo : List α) (cap : Nat) (hcap : names.length ≤ cap)
    (t : α) (ht : t ∈ names) (s : St α) (h : Star (Step lt t) (St.start names todo cap) s) (hs : s.since = 0) :
    s.r ≠ .missing := by
  intro hm
  obtain ⟨p, hp⟩ := List.getElem?_of_mem ht
  have := C104_missed_only_if lt names todo cap hcap t p hp s h hm
  have hlt : p < names.length := by
    rcases Nat.lt_or_ge p names.length with h | h
    · exact h
    · rw [List.getElem?_eq_none h] at hp; simp at hp
  rw [List.length_drop] at this
  omega

/-- Everything in the arrays was registered or is being registered. -/
def From (P : α → Prop) (s : St α) : Prop :=
  (∀ i x, s.cells i = some x → P x) ∧ (∀ x ∈ s.todo, P x) ∧ (∀ j x, s.w = .half j (some x) → P x) ∧
    (∀ i k f, s.r = .scan i k (some f) → ∀ j x, f j = some x → P x)

theorem from_upd {P : α → Prop} {f : Nat → Option α} (hf : ∀ i x, f i = some x → P x) {k : Nat} {v : Option α}
    (hv : ∀ x, v = some x → P x) : ∀ i x, upd f k v i = some x → P x := by
  intro i x h
  simp only [upd] at h
  split at h
  · exact hv x h
  · exact hf i x h

theorem from_step {lt : Option α → Option α → Bool} {t : α} {P : α → Prop} (a b : St α)
    (h : From P a ∧ (a.r = .found → P t)) (hs : Step lt t a b) : From P b ∧ (b.r = .found → P t) := by
  obtain ⟨⟨h1, h2, h3, h4⟩, h5⟩ := h
  cases hs with
  | store c cs hw ht hc =>
    rw [ht] at h2
    exact ⟨⟨from_upd h1 (by intro x e; cases e; exact h2 _ (.head _)), fun x hx => h2 x (.tail _ hx), by simp, h4⟩, h5⟩
  | header hw => exact ⟨⟨h1, h2, by simp, h4⟩, h5⟩
  | realloc c cs cap hw ht hc hcap =>
    rw [ht] at h2
    refine ⟨⟨from_upd ?_ (by intro x e; cases e; exact h2 _ (.head _)), fun x hx => h2 x (.tail _ hx), by simp, ?_⟩, ?_⟩
    · intro i x e
      split at e
      · exact h1 i x e
      · simp at e
    · intro i k f hr
      simp only at hr
      cases har : a.r with
      | scan i' k' old' =>
        rw [har] at hr
        cases old' with
        | none =>
          simp only [R.detach, R.scan.injEq, Option.some.injEq] at hr
          rw [← hr.2.2]; exact h1
        | some f' =>
          simp only [R.detach, R.scan.injEq, Option.some.injEq] at hr
          rw [← hr.2.2]; exact h4 i' k' f' har
      | _ => rw [har] at hr; simp [R.detach] at hr
    · intro hr
      apply h5
      cases har : a.r with
      | scan i' k' old' => simp only [har] at hr; cases old' <;> simp [R.detach] at hr
      | found => rfl
      | _ => simp only [har] at hr; simp [R.detach] at hr
  | swap j hw hl =>
    refine ⟨⟨from_upd h1 (h1 j), h2, ?_, h4⟩, h5⟩
    intro j' x e
    simp only [W.half.injEq] at e
    exact h1 _ x e.2
  | swapped j x hw =>
    refine ⟨⟨from_upd h1 ?_, h2, by simp, h4⟩, h5⟩
    intro y e
    exact h3 (j + 1) y (by rw [hw, e])
  | sorted j hw hl => exact ⟨⟨h1, h2, by simp, h4⟩, h5⟩
  | begin hr => exact ⟨⟨h1, h2, h3, by simp⟩, by simp⟩
  | hit i k old hr hi he =>
    refine ⟨⟨h1, h2, h3, by simp⟩, fun _ => ?_⟩
    cases old with
    | none => exact h1 _ _ he
    | some f => exact h4 i k f hr _ _ he
  | pass i k old hr hi he =>
    refine ⟨⟨h1, h2, h3, ?_⟩, by simp⟩
    intro i' k' f e
    simp only [R.scan.injEq] at e
    obtain ⟨_, _, e3⟩ := e
    subst e3
    exact h4 i k f hr
  | fail i k old hr hi => exact ⟨⟨h1, h2, h3, by simp⟩, by simp⟩

/-- C104: a lookup finds only what has been or is being registered. -/
theorem C104_sound (lt : Option α → Option α → Bool) (names todo : List α) (cap : Nat) (t : α) (s : St α)
    (h : Star (Step lt t) (St.start names todo cap) s) (hf : s.r = .found) : t ∈ names ∨ t ∈ todo := by
  have := MS.Sender.Star.inv (P := fun s => From (fun x => x ∈ names ∨ x ∈ todo) s ∧ (s.r = .found → t ∈ names ∨ t ∈ todo))
    from_step h ⟨⟨fun i x e => .inl (List.mem_of_getElem? e), fun x hx => .inr hx, by simp [St.start], by simp [St.start]⟩,
      by simp [St.start]⟩
  exact this.2 hf

/-- What the lookup can see are commands whose registration has come as far as the slice header. -/
structure Seen (names todo : List α) (t : α) (s : St α) (reg unfin : List α) : Prop where
  split : todo = reg ++ unfin ++ s.todo
  stored : s.w = .stored → ∃ c, unfin = [c] ∧ s.cells s.len = some c
  other : s.w ≠ .stored → unfin = []
  cells : ∀ i < s.len, ∀ x, s.cells i = some x → x ∈ names ++ reg
  sorting : ∀ j, s.w = .sorting j → j < s.len
  half : ∀ j x, s.w = .half j x → j < s.len ∧ ∀ y, x = some y → y ∈ names ++ reg
  now : ∀ i k, s.r = .scan i k none → k ≤ s.len
  old : ∀ i k f, s.r = .scan i k (some f) → ∀ j < k, ∀ x, f j = some x → x ∈ names ++ reg
  found : s.r = .found → t ∈ names ++ reg

theorem seen_step {lt : Option α → Option α → Bool} {names todo : List α} {t : α} (a b : St α)
    (h : ∃ reg unfin, Seen names todo t a reg unfin) (hs : Step lt t a b) : ∃ reg unfin, Seen names todo t b reg unfin := by
  obtain ⟨reg, unfin, h⟩ := h
  cases hs with
  | store c cs hw ht hc =>
    have hu := h.other (by rw [hw]; simp)
    subst hu
    refine ⟨reg, [c], by have := h.split; rw [ht] at this; simp [this], fun _ => ⟨c, rfl, by simp [upd]⟩, by simp, ?_, by simp, by simp, h.now, h.old, h.found⟩
    intro i hi x e
    have hi : i < a.len := hi
    simp only [upd, if_neg (by omega : ¬ i = a.len)] at e
    exact h.cells i hi x e
  | header hw =>
    obtain ⟨c, hu, hcl⟩ := h.stored hw
    subst hu
    have up : ∀ x, x ∈ names ++ reg → x ∈ names ++ (reg ++ [c]) := by simp; grind
    refine ⟨reg ++ [c], [], by simpa using h.split, by simp, by simp, ?_, by simp, by simp, fun i k e => Nat.le_succ_of_le (h.now i k e),
      fun i k f e j hj x ex => up x (h.old i k f e j hj x ex), fun e => up t (h.found e)⟩
    intro i hi x e
    have hi : i < a.len + 1 := hi
    rcases Nat.lt_or_ge i a.len with hlt | hge
    · exact up x (h.cells i hlt x e)
    · have : i = a.len := by omega
      subst this
      have e : a.cells a.len = some x := e
      rw [hcl] at e
      injection e with e
      simp [e]
  | realloc c cs cap hw ht hc hcap =>
    have hu := h.other (by rw [hw]; simp)
    subst hu
    have up : ∀ x, x ∈ names ++ reg → x ∈ names ++ (reg ++ [c]) := by simp; grind
    refine ⟨reg ++ [c], [], by have := h.split; rw [ht] at this; simp [this], by simp, by simp, ?_, by simp, by simp, ?_, ?_, ?_⟩
    · intro i hi x e
      have hi : i < a.len + 1 := hi
      simp only [upd] at e
      split at e
      · injection e with e; simp [e]
      · rw [if_pos (by omega)] at e
        exact up x (h.cells i (by omega) x e)
    · intro i k e
      simp only at e
      cases har : a.r with
      | scan i' k' old' => rw [har] at e; cases old' <;> simp [R.detach] at e
      | _ => rw [har] at e; simp [R.detach] at e
    · intro i k f e
      simp only at e
      cases har : a.r with
      | scan i' k' old' =>
        rw [har] at e
        cases old' with
        | none =>
          simp only [R.detach, R.scan.injEq, Option.some.injEq] at e
          obtain ⟨_, e2, e3⟩ := e
          subst e2 e3
          exact fun j hj x ex => up x (h.cells j (by have := h.now _ _ har; omega) x ex)
        | some f' =>
          simp only [R.detach, R.scan.injEq, Option.some.injEq] at e
          obtain ⟨_, e2, e3⟩ := e
          subst e2 e3
          exact fun j hj x ex => up x (h.old _ _ _ har j hj x ex)
      | _ => rw [har] at e; simp [R.detach] at e
    · intro e
      apply up
      apply h.found
      simp only at e
      cases har : a.r with
      | scan i' k' old' => rw [har] at e; cases old' <;> simp [R.detach] at e
      | found => rfl
      | _ => rw [har] at e; simp [R.detach] at e
  | swap j hw hl =>
    have hj := h.sorting _ hw
    refine ⟨reg, unfin, h.split, by simp, fun _ => h.other (by rw [hw]; simp), ?_, by simp, ?_, h.now, h.old, h.found⟩
    · intro i hi x e
      simp only [upd] at e
      split at e
      · exact h.cells j (by omega) x e
      · exact h.cells i hi x e
    · intro j' x e
      simp only [W.half.injEq] at e
      obtain ⟨e1, e2⟩ := e
      subst e1 e2
      exact ⟨hj, fun y ey => h.cells _ hj y ey⟩
  | swapped j x hw =>
    obtain ⟨hj, hx⟩ := h.half _ _ hw
    refine ⟨reg, unfin, h.split, by simp, fun _ => h.other (by rw [hw]; simp), ?_, ?_, by simp, h.now, h.old, h.found⟩
    · intro i hi y e
      simp only [upd] at e
      split at e
      · exact hx y e
      · exact h.cells i hi y e
    · intro j' e
      simp only [W.sorting.injEq] at e
      show j' < a.len
      omega
  | sorted j hw hl =>
    exact ⟨reg, unfin, h.split, by simp, fun _ => h.other (by rw [hw]; simp), h.cells, by simp, by simp, h.now, h.old, h.found⟩
  | begin hr =>
    refine ⟨reg, unfin, h.split, h.stored, h.other, h.cells, h.sorting, h.half, ?_, by simp, by simp⟩
    intro i k e
    simp only [R.scan.injEq] at e
    show k ≤ a.len
    omega
  | hit i k old hr hi he =>
    refine ⟨reg, unfin, h.split, h.stored, h.other, h.cells, h.sorting, h.half, by simp, by simp, fun _ => ?_⟩
    cases old with
    | none => exact h.cells i (by have := h.now _ _ hr; omega) _ he
    | some f => exact h.old _ _ _ hr i hi _ he
  | pass i k old hr hi he =>
    refine ⟨reg, unfin, h.split, h.stored, h.other, h.cells, h.sorting, h.half, ?_, ?_, by simp⟩
    · intro i' k' e
      simp only [R.scan.injEq] at e
      obtain ⟨_, e2, e3⟩ := e
      subst e2 e3
      exact h.now _ _ hr
    · intro i' k' f e
      simp only [R.scan.injEq] at e
      obtain ⟨_, e2, e3⟩ := e
      subst e2 e3
      exact h.old _ _ _ hr
  | fail i k old hr hi => exact ⟨reg, unfin, h.split, h.stored, h.other, h.cells, h.sorting, h.half, by simp, by simp, by simp⟩

/-- C104: a lookup finds only what has been registered: of the commands still to come only those that are in the table (`reg`),
not the one that is being put there (`unfin`) nor those after it. -/
theorem C104_registered (lt : Option α → Option α → Bool) (names todo : List α) (cap : Nat) (t : α) (s : St α)
    (h : Star (Step lt t) (St.start names todo cap) s) (hf : s.r = .found) :
    ∃ reg unfin, todo = reg ++ unfin ++ s.todo ∧ (s.w = .stored → unfin.length = 1) ∧ (s.w ≠ .stored → unfin = []) ∧ t ∈ names ++ reg := by
  obtain ⟨reg, unfin, hs⟩ := MS.Sender.Star.inv (P := fun s => ∃ reg unfin, Seen names todo t s reg unfin) seen_step h
    ⟨[], [], rfl, by simp [St.start], fun _ => rfl, by intro i _ x e; simp; exact List.mem_of_getElem? e, by simp [St.start], by simp [St.start],
      by simp [St.start], by simp [St.start], by simp [St.start]⟩
  exact ⟨reg, unfin, hs.split, fun e => by obtain ⟨c, hc, _⟩ := hs.stored e; simp [hc], hs.other, hs.found hf⟩

theorem star_trans {β : Type} {r : β → β → Prop} {a b c : β} (h1 : Star r a b) (h2 : Star r b c) : Star r a c := by
  induction h2 with
  | refl => exact h1
  | tail _ hs ih => exact .tail ih hs

/-- A lookup passes over names that are not `t`. -/
theorem pass_all (lt : Option α → Option α → Bool) (t : α) (k : Nat) (m : Nat) (s : St α) (hr : s.r = .scan 0 k none)
    (hm : m ≤ k) (hne : ∀ i < m, s.cells i ≠ some t) : Star (Step lt t) s { s with r := .scan m k none } := by
  induction m with
  | zero => rw [← hr]; exact .refl _
  | succ m ih =>
    refine .tail (ih (by omega) (fun i hi => hne i (by omega))) ?_
    exact Step.pass (lt := lt) (t := t) { s with r := .scan m k none } m k none rfl (by omega) (hne m (by omega))

/-- C104, where it fails: the last command of a table with room for one more is not found by a lookup during which a
command that sorts before it is added, although it is registered all the time. -/
theorem C104_missed (lt : Option α → Option α → Bool) (names : List α) (t c : α) (cap : Nat) (hcap : names.length + 1 < cap)
    (hn : t ∉ names) (hc : c ≠ t) (hlt : lt (some c) (some t) = true) :
    ∃ s, Star (Step lt t) (St.start (names ++ [t]) [c] cap) s ∧ s.r = .missing := by
  let L := names.length
  let f0 : Nat → Option α := fun i => (names ++ [t])[i]?
  have e0 : ∀ i < L, f0 i ≠ some t := by
    intro i hi e
    simp only [f0, List.getElem?_append_left hi] at e
    exact hn (List.mem_of_getElem? e)
  have eL : f0 L = some t := by simp [f0, L]
  let s1 : St α := ⟨upd f0 (L + 1) (some c), L + 1, cap, [], .stored, .idle, 0⟩
  have p1 : Step lt t (St.start (names ++ [t]) [c] cap) s1 := by
    have := Step.store (lt := lt) (t := t) (St.start (names ++ [t]) [c] cap) c [] rfl rfl (by simp [St.start]; omega)
    simpa [St.start, s1, f0, L] using this
  let s2 : St α := ⟨upd f0 (L + 1) (some c), L + 1, cap, [], .stored, .scan 0 (L + 1) none, 0⟩
  have p2 : Step lt t s1 s2 := Step.begin s1 rfl
  let s3 : St α := ⟨upd f0 (L + 1) (some c), L + 1, cap, [], .stored, .scan L (L + 1) none, 0⟩
  have p3 : Star (Step lt t) s2 s3 := by
    refine pass_all lt t (L + 1) L s2 rfl (by omega) ?_
    intro i hi
    simp only [s2, upd]
    rw [if_neg (by omega)]
    exact e0 i hi
  let s4 : St α := ⟨upd f0 (L + 1) (some c), L + 2, cap, [], .sorting (L + 1), .scan L (L + 1) none, 1⟩
  have p4 : Step lt t s3 s4 := Step.header s3 rfl
  let s5 : St α := ⟨upd (upd f0 (L + 1) (some c)) (L + 1) (some t), L + 2, cap, [], .half (L + 1) (some c), .scan L (L + 1) none, 1⟩
  have c4 : s4.cells (L + 1) = some c := by simp [s4, upd]
  have c5 : s4.cells L = some t := by simp only [s4, upd]; rw [if_neg (by omega)]; exact eL
  have p5 : Step lt t s4 s5 := by
    have := Step.swap (lt := lt) (t := t) s4 L rfl (by rw [c4, c5]; exact hlt)
    rw [c4, c5] at this
    exact this
  let s6 : St α := ⟨upd (upd (upd f0 (L + 1) (some c)) (L + 1) (some t)) L (some c), L + 2, cap, [], .sorting L, .scan L (L + 1) none, 1⟩
  have p6 : Step lt t s5 s6 := Step.swapped s5 L (some c) rfl
  have p7 : Step lt t s6 { s6 with r := .scan (L + 1) (L + 1) none } :=
    Step.pass s6 L (L + 1) none rfl (by omega) (by simp [s6, upd, hc])
  have p8 : Step lt t { s6 with r := .scan (L + 1) (L + 1) none } { s6 with r := .missing } :=
    Step.fail { s6 with r := .scan (L + 1) (L + 1) none } (L + 1) (L + 1) none rfl (by omega)
  have q1 : Star (Step lt t) (St.start (names ++ [t]) [c] cap) s2 := .tail (.tail (.refl _) p1) p2
  exact ⟨_, .tail (.tail (.tail (.tail (.tail (star_trans q1 p3) p4) p5) p6) p7) p8, rfl⟩

/-! ## The table when nothing is being registered -/

/-- The cells, with a swap under way completed. -/
def eff (s : St α) : Nat → Option α :=
  match s.w with
  | .half j x => upd s.cells (j - 1) x
  | _ => s.cells

/-- The number of cells in use. -/
def effLen (s : St α) : Nat :=
  match s.w with
  | .stored => s.len + 1
  | _ => s.len

/-- Which place is not yet in order, if any. -/
def hole (s : St α) : Option Nat :=
  match s.w with
  | .idle => none
  | .stored => some s.len
  | .sorting j => some j
  | .half j _ => some (j - 1)

/-- What holds of every state reached: apart from the command being moved, which is not greater than those behind it, the cells
are in order. -/
structure OInv (lt : Option α → Option α → Bool) (names todo : List α) (s : St α) : Prop where
  half : ∀ j x, s.w = .half j x → 0 < j
  hole_lt : ∀ j, hole s = some j → j < effLen s
  order : ∀ i k, i < k → k < effLen s → hole s ≠ some i → hole s ≠ some k → lt (eff s k) (eff s i) = false
  below : ∀ j k, hole s = some j → j < k → k < effLen s → lt (eff s k) (eff s j) = false
  content : ∃ reg, todo = reg ++ s.todo ∧ ((List.range (effLen s)).map (eff s)).Perm ((names ++ reg).map some)

theorem map_congr_lt {f g : Nat → Option α} {n : Nat} (h : ∀ i < n, f i = g i) : (List.range n).map f = (List.range n).map g :=
  List.map_congr_left (fun i hi => h i (List.mem_range.1 hi))

theorem swap_perm (f : Nat → Option α) (j n : Nat) (h : j + 1 < n) :
    ((List.range n).map (upd (upd f (j + 1) (f j)) j (f (j + 1)))).Perm ((List.range n).map f) := by
  have hr : List.range n = List.range j ++ (j :: (j + 1) :: List.range' (j + 2) (n - (j + 2))) := by
    rw [List.range_eq_range', List.range_eq_range', show n = j + ((n - (j + 2)) + 1 + 1) by omega,
      ← List.range'_append_1, List.range'_succ, List.range'_succ]
    simp
    omega
  rw [hr, List.map_append, List.map_append]
  refine List.Perm.append ?_ ?_
  · rw [List.map_congr_left]
    intro i hi
    have := List.mem_range.1 hi
    simp only [upd]
    rw [if_neg (by omega), if_neg (by omega)]
  · simp only [List.map_cons]
    have e : (List.range' (j + 2) (n - (j + 2))).map (upd (upd f (j + 1) (f j)) j (f (j + 1))) =
        (List.range' (j + 2) (n - (j + 2))).map f := by
      apply List.map_congr_left
      intro i hi
      have := List.mem_range'_1.1 hi
      simp only [upd]
      rw [if_neg (by omega), if_neg (by omega)]
    rw [e]
    have e1 : upd (upd f (j + 1) (f j)) j (f (j + 1)) j = f (j + 1) := by simp [upd]
    have e2 : upd (upd f (j + 1) (f j)) j (f (j + 1)) (j + 1) = f j := by simp [upd]
    rw [e1, e2]
    exact List.Perm.swap _ _ _

theorem oinv_congr {lt : Option α → Option α → Bool} {names todo : List α} {s s' : St α} (h : OInv lt names todo s)
    (e1 : s'.w = s.w) (e2 : s'.cells = s.cells) (e3 : s'.len = s.len) (e4 : s'.todo = s.todo) : OInv lt names todo s' := by
  have a1 : eff s' = eff s := by simp [eff, e1, e2]
  have a2 : effLen s' = effLen s := by simp [effLen, e1, e3]
  have a3 : hole s' = hole s := by simp [hole, e1, e3]
  exact ⟨by rw [e1]; exact h.half, by rw [a3, a2]; exact h.hole_lt, by rw [a3, a2, a1]; exact h.order,
    by rw [a3, a2, a1]; exact h.below, by rw [a2, a1, e4]; exact h.content⟩

/-- a new command is written behind the others -/
theorem oinv_push {lt : Option α → Option α → Bool} {names todo : List α} {s s' : St α} {c : α} {cs : List α}
    (h : OInv lt names todo s) (hw : s.w = .idle) (ht : s.todo = c :: cs)
    (hc : ∀ i < s.len, eff s' i = s.cells i) (hn : eff s' s.len = some c) (hl : effLen s' = s.len + 1) (hh : hole s' = some s.len)
    (hx : ∀ j x, s'.w = .half j x → 0 < j) (htd : s'.todo = cs) : OInv lt names todo s' := by
  have e1 : eff s = s.cells := by simp [eff, hw]
  have e2 : effLen s = s.len := by simp [effLen, hw]
  have e3 : hole s = none := by simp [hole, hw]
  refine ⟨hx, ?_, ?_, ?_, ?_⟩
  · intro j hj; rw [hh] at hj; injection hj with hj; omega
  · intro i k hik hk hi hk'
    rw [hh] at hi hk'
    have hk2 : k ≠ s.len := fun e => hk' (by rw [e])
    rw [hl] at hk
    rw [hc i (by omega), hc k (by omega)]
    have := h.order i k hik (by rw [e2]; omega) (by rw [e3]; simp) (by rw [e3]; simp)
    rwa [e1] at this
  · intro j k hj hjk hk
    rw [hh] at hj; injection hj with hj
    omega
  · obtain ⟨reg, r1, r2⟩ := h.content
    refine ⟨reg ++ [c], by rw [r1, ht, htd]; simp, ?_⟩
    rw [hl, List.range_succ, List.map_append, List.map_singleton, hn, ← List.append_assoc, List.map_append, List.map_singleton]
    refine List.Perm.append ?_ (.refl _)
    rw [e2, e1] at r2
    rwa [map_congr_lt hc]

theorem oinv_step {lt : Option α → Option α → Bool} (hasym : ∀ a b, lt a b = true → lt b a = false)
    (htrans : ∀ a b c, lt b a = false → lt c b = false → lt c a = false) {names todo : List α} {t : α} {s s' : St α}
    (h : Step lt t s s') (hi : OInv lt names todo s) : OInv lt names todo s' := by
  cases h with
  | store c cs hw ht hc =>
    refine oinv_push hi hw ht ?_ ?_ rfl rfl (by simp) rfl
    · intro i hi; simp only [eff, upd]; rw [if_neg (by omega)]
    · simp [eff, upd]
  | realloc c cs cap hw ht hc hcap =>
    refine oinv_push hi hw ht ?_ ?_ rfl rfl (by simp) rfl
    · intro i hi; simp only [eff, upd]; rw [if_neg (by omega), if_pos hi]
    · simp [eff, upd]
  | header hw =>
    have a1 : ∀ s' : St α, s'.w = .sorting s.len → eff s' = s'.cells := by intro s' e; simp [eff, e]
    refine ⟨by simp, ?_, ?_, ?_, ?_⟩
    · intro j hj; simp [hole] at hj; simp [effLen]; omega
    · intro i k; have := hi.order i k; simpa [hole, effLen, eff, hw] using this
    · intro j k; have := hi.below j k; simpa [hole, effLen, eff, hw] using this
    · have := hi.content; simpa [effLen, eff, hw] using this
  | swap j hw hl =>
    have e1 : eff s = s.cells := by simp [eff, hw]
    have e2 : effLen s = s.len := by simp [effLen, hw]
    have e3 : hole s = some (j + 1) := by simp [hole, hw]
    have f2 : effLen { s with cells := upd s.cells (j + 1) (s.cells j), w := .half (j + 1) (s.cells (j + 1)) } = s.len := rfl
    have f3 : hole { s with cells := upd s.cells (j + 1) (s.cells j), w := .half (j + 1) (s.cells (j + 1)) } = some j := rfl
    have f1 : eff { s with cells := upd s.cells (j + 1) (s.cells j), w := .half (j + 1) (s.cells (j + 1)) } =
      upd (upd s.cells (j + 1) (s.cells j)) j (s.cells (j + 1)) := rfl
    have hlt := hi.hole_lt _ e3
    rw [e2] at hlt
    have g0 : upd (upd s.cells (j + 1) (s.cells j)) j (s.cells (j + 1)) j = s.cells (j + 1) := by simp [upd]
    have g1 : upd (upd s.cells (j + 1) (s.cells j)) j (s.cells (j + 1)) (j + 1) = s.cells j := by simp [upd]
    have g2 : ∀ i, i ≠ j → i ≠ j + 1 → upd (upd s.cells (j + 1) (s.cells j)) j (s.cells (j + 1)) i = s.cells i := by
      intro i h1 h2; simp [upd, h1, h2]
    have ord : ∀ i k, i < k → k < s.len → i ≠ j + 1 → k ≠ j + 1 → lt (s.cells k) (s.cells i) = false := by
      intro i k h1 h2 h3 h4
      have := hi.order i k h1 (by rw [e2]; exact h2) (by rw [e3]; simp; omega) (by rw [e3]; simp; omega)
      rwa [e1] at this
    have bel : ∀ k, j + 1 < k → k < s.len → lt (s.cells k) (s.cells (j + 1)) = false := by
      intro k h1 h2
      have := hi.below (j + 1) k e3 h1 (by rw [e2]; exact h2)
      rwa [e1] at this
    refine ⟨by intro j' x e; simp at e; omega, ?_, ?_, ?_, ?_⟩
    · rw [f3, f2]; intro j' e; injection e with e; omega
    · rw [f3, f2, f1]
      intro i k hik hk h1 h2
      have h1 : i ≠ j := fun e => h1 (by rw [e])
      have h2 : k ≠ j := fun e => h2 (by rw [e])
      by_cases hk1 : k = j + 1
      · rw [hk1, g1, g2 i h1 (by omega)]
        exact ord i j (by omega) (by omega) (by omega) (by omega)
      · by_cases hi1 : i = j + 1
        · rw [hi1, g1, g2 k h2 hk1]
          exact ord j k (by omega) hk (by omega) hk1
        · rw [g2 i h1 hi1, g2 k h2 hk1]
          exact ord i k hik hk hi1 hk1
    · rw [f3, f2, f1]
      intro j' k e hjk hk
      injection e with e
      subst e
      rw [g0]
      by_cases hk1 : k = j + 1
      · rw [hk1, g1]; exact hasym _ _ hl
      · rw [g2 k (by omega) hk1]; exact bel k (by omega) hk
    · obtain ⟨reg, r1, r2⟩ := hi.content
      rw [e2, e1] at r2
      exact ⟨reg, r1, by rw [f2, f1]; exact (swap_perm s.cells j s.len hlt).trans r2⟩
  | swapped j x hw =>
    have e1 : eff s = upd s.cells j x := by simp [eff, hw]
    have e2 : effLen s = s.len := by simp [effLen, hw]
    have e3 : hole s = some j := by simp [hole, hw]
    refine ⟨by simp, ?_, ?_, ?_, ?_⟩
    · intro j' e; have := hi.hole_lt j'; rw [e3, e2] at this; exact this e
    · intro i k; have := hi.order i k; rw [e3, e2, e1] at this; exact this
    · intro i k; have := hi.below i k; rw [e3, e2, e1] at this; exact this
    · have := hi.content; rw [e2, e1] at this; exact this
  | sorted j hw hl =>
    have e1 : eff s = s.cells := by simp [eff, hw]
    have e2 : effLen s = s.len := by simp [effLen, hw]
    have e3 : hole s = some j := by simp [hole, hw]
    refine ⟨by simp, by simp [hole], ?_, by simp [hole], ?_⟩
    · intro i k hik hk _ _
      show lt (s.cells k) (s.cells i) = false
      have hk : k < s.len := hk
      have ord : ∀ i k, i < k → k < s.len → i ≠ j → k ≠ j → lt (s.cells k) (s.cells i) = false := by
        intro i k h1 h2 h3 h4
        have := hi.order i k h1 (by rw [e2]; exact h2) (by rw [e3]; simp; omega) (by rw [e3]; simp; omega)
        rwa [e1] at this
      by_cases hkj : k = j
      · have hl' : lt (s.cells j) (s.cells (j - 1)) = false := by
          rcases hl with h | h
          · omega
          · exact h
        rw [hkj]
        by_cases hij : i = j - 1
        · rw [hij]; exact hl'
        · exact htrans _ _ _ (ord i (j - 1) (by omega) (by omega) (by omega) (by omega)) hl'
      · by_cases hij : i = j
        · have := hi.below j k e3 (by omega) (by rw [e2]; exact hk)
          rw [e1] at this
          rw [hij]; exact this
        · exact ord i k hik hk hij hkj
    · have := hi.content; rw [e2, e1] at this; exact this
  | begin hr => exact oinv_congr hi rfl rfl rfl rfl
  | hit i k old hr hi' he => exact oinv_congr hi rfl rfl rfl rfl
  | pass i k old hr hi' he => exact oinv_congr hi rfl rfl rfl rfl
  | fail i k old hr hi' => exact oinv_congr hi rfl rfl rfl rfl

/-- C104: whenever no registration is under way, the table is in the order of the names and holds exactly the commands that were
registered before and since. -/
theorem C104_order (lt : Option α → Option α → Bool) (hasym : ∀ a b, lt a b = true → lt b a = false)
    (htrans : ∀ a b c, lt b a = false → lt c b = false → lt c a = false) (names todo : List α)
    (hs : names.Pairwise fun a b => lt (some b) (some a) = false) (cap : Nat) (t : α) (s : St α)
    (h : Star (Step lt t) (St.start names todo cap) s) (hw : s.w = .idle) :
    ∃ reg table : List α, todo = reg ++ s.todo ∧ (List.range s.len).map s.cells = table.map some ∧ table.Perm (names ++ reg) ∧
      table.Pairwise fun a b => lt (some b) (some a) = false := by
  have h0 : OInv lt names todo (St.start names todo cap) := by
    have hget : ∀ i (hi : i < names.length), (St.start names todo cap).cells i = some names[i] := by
      intro i hi; simp [St.start, hi]
    refine ⟨by simp [St.start], by simp [St.start, hole], ?_, by simp [St.start, hole], [], by simp [St.start], ?_⟩
    · intro i k hik hk _ _
      have hk : k < names.length := hk
      show lt ((St.start names todo cap).cells k) ((St.start names todo cap).cells i) = false
      rw [hget i (by omega), hget k hk]
      exact List.pairwise_iff_getElem.1 hs i k (by omega) hk hik
    · have : (List.range (effLen (St.start names todo cap))).map (eff (St.start names todo cap)) = (names ++ []).map some := by
        show (List.range names.length).map (fun i => names[i]?) = _
        rw [List.append_nil]
        apply List.ext_getElem (by simp)
        intro i h1 h2
        simp
      rw [this]
  have hinv := MS.Sender.Star.inv (P := OInv lt names todo) (fun _ _ hp hst => oinv_step hasym htrans hst hp) h h0
  obtain ⟨reg, r1, r2⟩ := hinv.content
  have e1 : eff s = s.cells := by simp [eff, hw]
  have e2 : effLen s = s.len := by simp [effLen, hw]
  have e3 : hole s = none := by simp [hole, hw]
  rw [e1, e2] at r2
  have hall : ∀ x ∈ (List.range s.len).map s.cells, ∃ a, x = some a := by
    intro x hx
    have := r2.subset hx
    obtain ⟨a, -, rfl⟩ := List.mem_map.1 this
    exact ⟨a, rfl⟩
  have ht : ∃ table : List α, (List.range s.len).map s.cells = table.map some := by
    generalize (List.range s.len).map s.cells = l at hall
    clear r2
    induction l with
    | nil => exact ⟨[], rfl⟩
    | cons x l ih =>
      obtain ⟨a, rfl⟩ := hall x (by simp)
      obtain ⟨tb, e⟩ := ih (fun y hy => hall y (List.mem_cons_of_mem _ hy))
      exact ⟨a :: tb, by rw [e]; rfl⟩
  obtain ⟨table, e⟩ := ht
  refine ⟨reg, table, r1, e, ?_, ?_⟩
  · rw [e] at r2
    have := r2.filterMap id
    simpa [List.filterMap_map, Function.comp_def] using this
  · rw [List.pairwise_iff_getElem]
    intro i k hi hk hik
    have hlen : table.length = s.len := by have := congrArg List.length e; simpa using this.symm
    have hg : ∀ i (hi : i < table.length), s.cells i = some table[i] := by
      intro i hi
      have : ((List.range s.len).map s.cells)[i]? = (table.map some)[i]? := by rw [e]
      rw [List.getElem?_map, List.getElem?_range (by omega), List.getElem?_map, List.getElem?_eq_getElem hi] at this
      simpa using this
    have := hinv.order i k hik (by rw [e2]; omega) (by rw [e3]; simp) (by rw [e3]; simp)
    rw [e1, hg i hi, hg k hk] at this
    exact this

/-- Names are compared as in `commandSlice.Less`. -/
def byName : Option String → Option String → Bool := fun a b => (a.getD "") < (b.getD "")

/-- The server itself: `queue` is registered, and a session typing it while `playlist` is being registered is told that
there is no such command. -/
example : ∃ s, Star (Step byName "queue") (St.start ["help", "ls", "queue"] ["playlist"] 4) s ∧ s.r = .missing :=
  C104_missed byName ["help", "ls"] "queue" "playlist" 4 (by decide) (by decide) (by decide) (by decide)

/-- Non-vacuity of C104_order: `playlist` is registered after `queue`, and moved before it. -/
example : ∃ s, Star (Step byName "x") (St.start ["help", "ls", "queue"] ["playlist"] 4) s ∧ s.w = .idle ∧ s.todo = [] ∧
    (List.range s.len).map s.cells = [some "help", some "ls", some "playlist", some "queue"] := by
  refine ⟨_, .tail (.tail (.tail (.tail (.tail (.refl _) (Step.store _ "playlist" [] rfl rfl (by decide)))
    (Step.header _ rfl)) (Step.swap _ 2 rfl (by decide))) (Step.swapped _ 2 _ rfl)) (Step.sorted _ 2 rfl (.inr (by decide))),
    rfl, rfl, by decide⟩

/-- Non-vacuity: the order of names. -/
example : (∀ a b, byName a b = true → byName b a = false) ∧ (∀ a b c, byName b a = false → byName c b = false → byName c a = false) := by
  constructor
  · intro a b h
    simp only [byName, decide_eq_true_eq, decide_eq_false_iff_not] at h ⊢
    exact String.lt_asymm h
  · intro a b c h1 h2
    simp only [byName, decide_eq_false_iff_not] at h1 h2 ⊢
    exact String.not_lt.2 (String.le_trans (String.not_lt.1 h1) (String.not_lt.1 h2))

/-- A lookup while nothing is added finds it. -/
example : ∃ s, Star (Step byName "ls") (St.start ["help", "ls"] ["queue"] 2) s ∧ s.r = .found ∧ s.since = 0 := by
  refine ⟨_, .tail (.tail (.tail (.refl _) (Step.begin _ rfl)) (Step.pass _ 0 2 none rfl (by decide) (by decide)))
    (Step.hit _ 1 2 none rfl (by decide) rfl), rfl, rfl⟩

end MS.Registry
