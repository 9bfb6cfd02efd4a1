import Verif.Model.Sender
/-!
# Properties C27, C28, C29, C51, C56: broadcasting, error collection, dispatch
-/
set_option linter.unusedSimpArgs false
namespace MS.Sender
open MS.Proto

/-! ## Lists -/

theorem snocInd {α : Type} {P : List α → Prop} (nil : P []) (snoc : ∀ l a, P l → P (l ++ [a])) : ∀ l, P l := by
  intro l
  have : P l.reverse.reverse := by
    induction l.reverse with
    | nil => exact nil
    | cons a t ih => rw [List.reverse_cons]; exact snoc _ _ ih
  simpa using this

theorem filterMap_congr' {α β : Type} {f g : α → Option β} {l : List α} (h : ∀ x ∈ l, f x = g x) :
    l.filterMap f = l.filterMap g := by
  induction l with
  | nil => rfl
  | cons a l ih =>
    rw [List.filterMap_cons, List.filterMap_cons, h a (by simp), ih (fun x hx => h x (by simp [hx]))]

theorem Star.inv {α : Type} {r : α → α → Prop} {P : α → Prop} (hstep : ∀ a b, P a → r a b → P b) {a b : α}
    (h : Star r a b) (ha : P a) : P b := by
  induction h with
  | refl => exact ha
  | tail _ hs ih => exact hstep _ _ ih hs

theorem filterMap_update {α β : Type} (f g : α → Option β) (l : List α) (hn : l.Nodup) (i : α) (hi : i ∈ l)
    (heq : ∀ j, j ≠ i → f j = g j) (hf : f i = none) :
    (l.filterMap g).Perm ((g i).toList ++ l.filterMap f) := by
  induction l with
  | nil => simp at hi
  | cons a l ih =>
    rw [List.nodup_cons] at hn
    rcases List.mem_cons.1 hi with rfl | hi
    · have : l.filterMap g = l.filterMap f := by
        apply filterMap_congr'
        intro j hj
        exact (heq j (fun h => hn.1 (h ▸ hj))).symm
      simp only [List.filterMap_cons, hf, this]
      cases g i <;> simp
    · have hne : a ≠ i := fun h => hn.1 (h ▸ hi)
      have ih := ih hn.2 hi
      simp only [List.filterMap_cons, heq a hne]
      cases hga : g a with
      | none => simpa using ih
      | some b =>
        simp only
        refine (List.Perm.cons b ih).trans ?_
        exact (List.perm_middle (a := b) (l₁ := (g i).toList)).symm

theorem filterMap_range_get {α : Type} (l : List α) (p : α → Bool) :
    (List.range l.length).filterMap (fun i => l[i]?.filter p) = l.filter p := by
  induction l using snocInd with
  | nil => rfl
  | snoc l a ih =>
    rw [List.length_append, List.length_singleton, List.range_succ, List.filterMap_append, List.filter_append, ← ih]
    congr 1
    · apply filterMap_congr'
      intro i hi
      rw [List.mem_range] at hi
      rw [List.getElem?_append_left hi]
    · cases hp : p a <;> simp [List.filter_cons, Option.filter, hp]

/-! ## C28: one broadcast -/

section Broadcast
variable {ε : Type}

/-- Specification: the error of the attempt for connection number `i`, if it is attempted and fails. -/
def failure (s : St) (m : Msg) (out : Nat → Option ε) (i : Nat) : Option ε :=
  match s.connections[i]? with
  | some c => if eligible s m c then out i else none
  | none => none

/-- Specification: all failures of a broadcast. -/
def failures (s : St) (m : Msg) (out : Nat → Option ε) : List ε :=
  (List.range s.connections.length).filterMap (failure s m out)

structure Inv (s : St) (m : Msg) (out : Nat → Option ε) (b : Bc ε) : Prop where
  len : b.ws.length = s.connections.length
  sent : ∀ i r, b.ws[i]? = some (.sent r) → r = failure s m out i
  errs : (b.adding ++ b.errs).Perm ((List.range s.connections.length).filterMap
    (fun i => if b.ws[i]? matches some .done then failure s m out i else none))
  writes : b.writes.Perm ((List.range s.connections.length).filterMap
    (fun i => if b.ws[i]? matches some .start then none else (s.connections[i]?.filter (eligible s m))))
  done : b.main ≠ .wgWait → ∀ w ∈ b.ws, w = .done
  ret : ∀ r, b.main = .returned r → b.adding = [] ∧ r = if b.errs = [] then none else some b.errs

theorem inv_init (s : St) (m : Msg) (out : Nat → Option ε) : Inv s m out (Bc.init s) := by
  constructor
  · simp [Bc.init]
  · intro i r h
    simp [Bc.init] at h
  · simp only [Bc.init, List.append_nil]
    rw [List.filterMap_eq_nil_iff.2]
    intro i hi
    rw [List.mem_range] at hi
    simp [hi]
  · simp only [Bc.init]
    rw [List.filterMap_eq_nil_iff.2]
    intro i hi
    rw [List.mem_range] at hi
    simp [hi]
  · simp [Bc.init]
  · simp [Bc.init]

theorem lt_of_get {α : Type} {l : List α} {i : Nat} {a : α} (h : l[i]? = some a) : i < l.length := by
  rcases Nat.lt_or_ge i l.length with h1 | h1
  · exact h1
  · rw [List.getElem?_eq_none h1] at h; simp at h

theorem inv_step {s : St} {m : Msg} {out : Nat → Option ε} {b b' : Bc ε} (h : Inv s m out b)
    (hs : Bc.Step s m out b b') : Inv s m out b' := by
  have sets : ∀ (i : Nat) (w : W ε) (w0 : W ε), b.ws[i]? = some w0 → ∀ j, (b.ws.set i w)[j]? = if j = i then some w else b.ws[j]? := by
    intro i w w0 hi j
    have := lt_of_get hi
    rw [List.getElem?_set]
    by_cases hj : i = j
    · subst hj; simp [this]
    · simp [hj, Ne.symm hj]
  have notDone : ∀ (i : Nat) (w0 : W ε), b.ws[i]? = some w0 → w0 ≠ .done → b.main = .wgWait := by
    intro i w0 hi hw
    apply Classical.byContradiction
    intro hm
    exact hw (h.done hm w0 (List.mem_of_getElem? hi))
  cases hs with
  | write i c hi hc he =>
    have hlt := lt_of_get hc
    have hm := notDone i _ hi (by simp)
    have hset := sets i (.sent (out i)) _ hi
    refine ⟨by simpa using h.len, ?_, ?_, ?_, ?_, ?_⟩
    · intro j r hj
      simp only [hset] at hj
      split at hj
      · rename_i e; subst e
        simp at hj
        simp [failure, hc, he, hj]
      · exact h.sent j r hj
    · refine h.errs.trans (List.Perm.of_eq (filterMap_congr' ?_))
      intro j _
      simp only [hset]
      by_cases e : j = i
      · subst e; simp [hi]
      · simp [e]
    · refine (List.perm_append_comm.trans ?_)
      refine (List.Perm.append_left [c] h.writes).trans ?_
      have := filterMap_update
        (fun j => if b.ws[j]? matches some .start then none else (s.connections[j]?.filter (eligible s m)))
        (fun j => if (b.ws.set i (.sent (out i)))[j]? matches some .start then none else (s.connections[j]?.filter (eligible s m)))
        (List.range s.connections.length) List.nodup_range i (List.mem_range.2 hlt)
        (by intro j hj; simp only [hset, hj, if_false]) (by simp [hi])
      refine List.Perm.symm (this.trans ?_)
      simp only [hset]
      simp [hc, Option.filter, he]
    · intro hne; exact absurd hm hne
    · intro r hr; simp only at hr; rw [hm] at hr; simp at hr
  | skip i c hi hc he =>
    have hlt := lt_of_get hc
    have hm := notDone i _ hi (by simp)
    have hset := sets i (.sent none) _ hi
    refine ⟨by simpa using h.len, ?_, ?_, ?_, ?_, ?_⟩
    · intro j r hj
      simp only [hset] at hj
      split at hj
      · rename_i e; subst e
        simp at hj
        simp [failure, hc, he, hj]
      · exact h.sent j r hj
    · refine h.errs.trans (List.Perm.of_eq (filterMap_congr' ?_))
      intro j _
      simp only [hset]
      by_cases e : j = i
      · subst e; simp [hi]
      · simp [e]
    · refine h.writes.trans (List.Perm.of_eq (filterMap_congr' ?_))
      intro j _
      simp only [hset]
      by_cases e : j = i
      · subst e; simp [hi, hc, Option.filter, he]
      · simp [e]
    · intro hne; exact absurd hm hne
    · intro r hr; simp only at hr; rw [hm] at hr; simp at hr
  | ok i hi =>
    have hlt := lt_of_get hi
    have hf := h.sent i none hi
    have hm := notDone i _ hi (by simp)
    have hset := sets i .done _ hi
    refine ⟨by simpa using h.len, ?_, ?_, ?_, ?_, ?_⟩
    · intro j r hj
      simp only [hset] at hj
      split at hj
      · simp at hj
      · exact h.sent j r hj
    · refine h.errs.trans (List.Perm.of_eq (filterMap_congr' ?_))
      intro j _
      simp only [hset]
      by_cases e : j = i
      · subst e; simp [hi, ← hf]
      · simp [e]
    · refine h.writes.trans (List.Perm.of_eq (filterMap_congr' ?_))
      intro j _
      simp only [hset]
      by_cases e : j = i
      · subst e; simp [hi]
      · simp [e]
    · intro hne; exact absurd hm hne
    · intro r hr; simp only at hr; rw [hm] at hr; simp at hr
  | add i e hi =>
    have hlt := lt_of_get hi
    have hf := h.sent i (some e) hi
    have hm := notDone i _ hi (by simp)
    have hset := sets i .done _ hi
    refine ⟨by simpa using h.len, ?_, ?_, ?_, ?_, ?_⟩
    · intro j r hj
      simp only [hset] at hj
      split at hj
      · simp at hj
      · exact h.sent j r hj
    · simp only [List.append_assoc]
      refine (List.perm_middle (a := e) (l₁ := b.adding)).trans ?_
      refine (List.Perm.cons e h.errs).trans ?_
      have := filterMap_update
        (fun j => if b.ws[j]? matches some .done then failure s m out j else none)
        (fun j => if (b.ws.set i .done)[j]? matches some .done then failure s m out j else none)
        (List.range s.connections.length) List.nodup_range i (List.mem_range.2 (h.len ▸ hlt))
        (by intro j hj; simp only [hset, hj, if_false]) (by simp [hi])
      refine List.Perm.symm (this.trans ?_)
      simp only [hset]
      simp [← hf]
    · refine h.writes.trans (List.Perm.of_eq (filterMap_congr' ?_))
      intro j _
      simp only [hset]
      by_cases e : j = i
      · subst e; simp [hi]
      · simp [e]
    · intro hne; exact absurd hm hne
    · intro r hr; simp only at hr; rw [hm] at hr; simp at hr
  | insert x y e ha =>
    refine ⟨h.len, h.sent, ?_, h.writes, h.done, ?_⟩
    · refine List.Perm.trans ?_ h.errs
      rw [ha]
      simp only [List.append_assoc, List.cons_append]
      refine List.Perm.append_left x ?_
      rw [← List.append_assoc]
      refine List.perm_append_comm.trans ?_
      simp
    · intro r hr
      have := (h.ret r hr).1
      rw [ha] at this
      simp at this
  | wait hm hd =>
    refine ⟨h.len, h.sent, h.errs, h.writes, fun _ => hd, ?_⟩
    intro r hr; simp at hr
  | ret hm ha =>
    refine ⟨h.len, h.sent, h.errs, h.writes, fun _ => h.done (by rw [hm]; simp), ?_⟩
    intro r hr
    simp at hr
    exact ⟨ha, hr.symm⟩

theorem inv_star {s : St} {m : Msg} {out : Nat → Option ε} {b : Bc ε}
    (hr : Star (Bc.Step s m out) (Bc.init s) b) : Inv s m out b :=
  hr.inv (fun _ _ => inv_step) (inv_init s m out)

theorem all_done {s : St} {m : Msg} {out : Nat → Option ε} {b : Bc ε} (h : Inv s m out b) {r}
    (hb : b.main = .returned r) (i : Nat) (hi : i < s.connections.length) : b.ws[i]? = some .done := by
  have hl : i < b.ws.length := by rw [h.len]; exact hi
  rw [List.getElem?_eq_getElem hl, h.done (by rw [hb]; simp) _ (List.getElem_mem hl)]

/-- C28. Whenever `SendMessage` returns, under every schedule of its goroutines: nil iff no attempted delivery failed;
otherwise the errors are exactly the failures, each once (in some order). And every eligible connection has been
written to exactly once, whichever of the writes failed. -/
theorem C28_error_complete (s : St) (m : Msg) (out : Nat → Option ε) (b : Bc ε)
    (hr : Star (Bc.Step s m out) (Bc.init s) b) (r : Option (List ε)) (hb : b.main = .returned r) :
    (r = none ↔ failures s m out = []) ∧ (∀ l, r = some l → l.Perm (failures s m out)) ∧
      b.writes.Perm (s.connections.filter (eligible s m)) := by
  have h := inv_star hr
  obtain ⟨ha, hrr⟩ := h.ret r hb
  have hp : b.errs.Perm (failures s m out) := by
    have := h.errs
    rw [ha, List.nil_append] at this
    refine this.trans (List.Perm.of_eq (filterMap_congr' ?_))
    intro i hi
    rw [all_done h hb i (List.mem_range.1 hi)]
    simp
  refine ⟨?_, ?_, ?_⟩
  · rw [hrr]
    constructor
    · intro hn
      split at hn
      · rename_i he; rw [he] at hp; exact List.Perm.nil_eq hp |>.symm
      · simp at hn
    · intro hf
      rw [hf] at hp
      simp [List.Perm.eq_nil hp]
  · intro l hl
    rw [hrr] at hl
    split at hl
    · simp at hl
    · simp at hl; rw [← hl]; exact hp
  · refine h.writes.trans ?_
    rw [← filterMap_range_get]
    refine List.Perm.of_eq (filterMap_congr' ?_)
    intro i hi
    rw [all_done h hb i (List.mem_range.1 hi)]
    simp

/-- Work left in a broadcast. -/
def weight : W ε → Nat
  | .start => 3
  | .sent _ => 2
  | .done => 0

def mainWeight : Main ε → Nat
  | .wgWait => 2
  | .errWait => 1
  | .returned _ => 0

def measure (b : Bc ε) : Nat := (b.ws.map weight).sum + b.adding.length + mainWeight b.main

theorem sum_set {l : List (W ε)} {i : Nat} {w0 w : W ε} (h : l[i]? = some w0) :
    ((l.set i w).map weight).sum + weight w0 = (l.map weight).sum + weight w := by
  induction l generalizing i with
  | nil => simp at h
  | cons a l ih =>
    cases i with
    | zero => simp at h; subst h; simp; omega
    | succ i => simp at h; have := ih h; simp only [List.set_cons_succ, List.map_cons, List.sum_cons]; omega

/-- C28. Every broadcast ends: each step of a goroutine reduces the work left, and as long as `SendMessage` has not
returned some goroutine can take a step. (Assumes that writes return.) -/
theorem C28_terminates (s : St) (m : Msg) (out : Nat → Option ε) (b : Bc ε)
    (hr : Star (Bc.Step s m out) (Bc.init s) b) :
    (∀ b', Bc.Step s m out b b' → measure b' < measure b) ∧
      ((∃ r, b.main = .returned r) ∨ ∃ b', Bc.Step s m out b b') := by
  have h := inv_star hr
  refine ⟨?_, ?_⟩
  · intro b' hs
    cases hs with
    | write i c hi hc he => have := sum_set (w := .sent (out i)) hi; simp only [measure, weight] at *; omega
    | skip i c hi hc he => have := sum_set (w := .sent none) hi; simp only [measure, weight] at *; omega
    | ok i hi => have := sum_set (w := .done) hi; simp only [measure, weight] at *; omega
    | add i e hi =>
      have := sum_set (w := .done) hi
      simp only [measure, weight, List.length_append, List.length_singleton] at *; omega
    | insert x y e ha => simp only [measure, ha, List.length_append, List.length_cons]; omega
    | wait hm hd => simp [measure, hm, mainWeight]
    | ret hm ha => simp [measure, hm, mainWeight]
  · by_cases hall : ∀ w ∈ b.ws, w = W.done
    · cases hm : b.main with
      | wgWait => exact .inr ⟨_, .wait b hm hall⟩
      | returned r => exact .inl ⟨r, rfl⟩
      | errWait =>
        cases ha : b.adding with
        | nil => exact .inr ⟨_, .ret b hm ha⟩
        | cons e y => exact .inr ⟨_, .insert b [] y e ha⟩
    · right
      have : ∃ w, w ∈ b.ws ∧ w ≠ W.done := by
        apply Classical.byContradiction
        intro hn
        exact hall (fun w hw => Classical.byContradiction (fun hne => hn ⟨w, hw, hne⟩))
      obtain ⟨w, hw, hne⟩ := this
      obtain ⟨i, hi, hiw⟩ := List.getElem_of_mem hw
      have hi' : b.ws[i]? = some w := by rw [List.getElem?_eq_getElem hi, hiw]
      cases w with
      | done => exact absurd rfl hne
      | start =>
        have hl : i < s.connections.length := by rw [← h.len]; exact hi
        have hc : s.connections[i]? = some s.connections[i] := List.getElem?_eq_getElem hl
        cases he : eligible s m s.connections[i] with
        | true => exact ⟨_, .write b i _ hi' hc he⟩
        | false => exact ⟨_, .skip b i _ hi' hc he⟩
      | sent r =>
        cases r with
        | none => exact ⟨_, .ok b i hi'⟩
        | some e => exact ⟨_, .add b i e hi'⟩

end Broadcast

/-! ## C27: who receives a broadcast -/

/-- Specification: `c` is connected after the history: added and not removed since. -/
def Connected (h : List Op) (c : Conn) : Prop := ∃ a b, h = a ++ .add c :: b ∧ Op.del c ∉ b

/-- Specification: `c` has subscribed to `ch`. -/
def Subscribed (h : List Op) (c : Conn) (ch : Int32) : Prop := Op.sub c ch ∈ h

theorem run_snoc (h : List Op) (o : Op) : run (h ++ [o]) = apply (run h) o := by simp [run]

theorem channels_run (h : List Op) (c : Conn) :
    ∀ ch, ch ∈ ((run h).channels c).getD [] ↔ Subscribed h c ch := by
  induction h using snocInd with
  | nil => intro ch; simp [run, St.init, Subscribed]
  | snoc h o ih =>
    intro ch
    rw [run_snoc]
    cases o with
    | add d => simpa [apply, addConn, Subscribed] using ih ch
    | del d =>
      have : (delConn (run h) d).channels = (run h).channels := by
        simp only [delConn]; split <;> rfl
      simpa [apply, this, Subscribed] using ih ch
    | sub d k =>
      have ih := ih ch
      by_cases hd : c = d
      · subst hd
        cases hc : (run h).channels c with
        | none => rw [hc] at ih; simp [Subscribed] at ih; simp [apply, subscribe, hc, Subscribed, ih]
        | some l => rw [hc] at ih; simp [Subscribed] at ih; simp [apply, subscribe, hc, Subscribed, ih]
      · simpa [apply, subscribe, hd, Subscribed] using ih

theorem isSubscribed_run (h : List Op) (c : Conn) (chs : List Int32) :
    isSubscribed (run h) c chs = true ↔ ∃ ch ∈ chs, Subscribed h c ch := by
  have := channels_run h c
  simp only [isSubscribed, containsChannel]
  cases hc : (run h).channels c with
  | none =>
    rw [hc] at this
    simp at this
    simp [this]
  | some l =>
    rw [hc] at this
    simp only [Option.getD_some] at this
    simp only [List.any_eq_true, beq_iff_eq, this]
    constructor
    · rintro ⟨ch, h1, x, h2, rfl⟩; exact ⟨ch, h2, h1⟩
    · rintro ⟨ch, h1, h2⟩; exact ⟨ch, h2, ch, h1, rfl⟩

theorem findIdx_some {l : List Conn} {c : Conn} {i : Nat} (h : l.findIdx? (· == c) = some i) : l[i]? = some c := by
  rw [List.findIdx?_eq_some_iff_getElem] at h
  obtain ⟨hi, h1, _⟩ := h
  rw [List.getElem?_eq_getElem hi]
  simpa using h1

/-- Removing: one occurrence of `c` fewer, everything else as before. -/
theorem count_del (s : St) (c d : Conn) :
    (delConn s c).connections.count d = s.connections.count d - if d = c then 1 else 0 := by
  simp only [delConn]
  cases hf : s.connections.findIdx? (· == c) with
  | none =>
    rw [List.findIdx?_eq_none_iff] at hf
    have : c ∉ s.connections := fun hm => by simpa using hf c hm
    by_cases hd : d = c
    · subst hd; simp [List.count_eq_zero_of_not_mem this]
    · simp [hd]
  | some i =>
    have hi := findIdx_some hf
    have hlt := lt_of_get hi
    simp only
    -- the list is x ++ [last] with the element at i equal to c
    generalize hs : s.connections = l at *
    have hne : l ≠ [] := by intro h; simp [h] at hlt
    obtain ⟨x, a, rfl⟩ : ∃ x a, l = x ++ [a] := ⟨l.dropLast, l.getLast hne, (List.dropLast_concat_getLast hne).symm⟩
    have hlast : (x ++ [a]).getLastD 0 = a := by simp [List.getLastD_eq_getLast?]
    rw [hlast]
    rcases Nat.lt_or_ge i x.length with hix | hix
    · rw [List.getElem?_append_left hix] at hi
      rw [List.set_append_left _ _ hix, List.dropLast_concat]
      have hxi : x[i] = c := by rw [List.getElem?_eq_getElem hix] at hi; simpa using hi
      rw [List.count_set hix, hxi]
      rw [List.count_append]
      have hpos : d = c → 0 < x.count d := by
        intro e; subst e; exact List.count_pos_iff.2 (hxi ▸ List.getElem_mem hix)
      by_cases h1 : d = c
      · subst h1
        have := hpos rfl
        by_cases h2 : a = d
        · subst h2; simp; omega
        · have h2' : ¬ (a == d) = true := by simpa using h2
          simp [h2, h2']
      · have h1' : ¬ (c == d) = true := by simpa using Ne.symm h1
        by_cases h2 : a = d
        · subst h2; simp [h1, h1']
        · have h2' : ¬ (a == d) = true := by simpa using h2
          simp [h1, h1', h2, h2']
    · have : i = x.length := by simp at hlt; omega
      subst this
      simp at hi
      subst hi
      rw [List.set_append_right _ _ (Nat.le_refl _)]
      simp only [Nat.sub_self, List.set_cons_zero, List.dropLast_concat, List.count_append]
      by_cases h1 : d = a
      · subst h1; simp
      · have h1' : ¬ (a == d) = true := by simpa using Ne.symm h1
        simp [h1, h1', Ne.symm h1]

theorem connected_snoc_del {h : List Op} {c d : Conn} : Connected (h ++ [.del d]) c ↔ (Connected h c ∧ c ≠ d) := by
  constructor
  · rintro ⟨a, b, e, hb⟩
    have hne : Op.add c :: b ≠ [] := by simp
    rcases List.eq_nil_or_concat b with rfl | ⟨b', o, rfl⟩
    · have := congrArg List.getLast? e; simp at this
    · rw [show a ++ Op.add c :: (b'.concat o) = (a ++ Op.add c :: b') ++ [o] by simp] at e
      obtain ⟨e1, e2⟩ := List.append_inj' e rfl
      simp at e2
      subst e2
      simp at hb
      exact ⟨⟨a, b', e1, hb.1⟩, hb.2⟩
  · rintro ⟨⟨a, b, rfl, hb⟩, hne⟩
    exact ⟨a, b ++ [.del d], by simp, by simp [hb, hne]⟩

theorem connected_snoc_sub {h : List Op} {c d : Conn} {k} : Connected (h ++ [.sub d k]) c ↔ Connected h c := by
  constructor
  · rintro ⟨a, b, e, hb⟩
    rcases List.eq_nil_or_concat b with rfl | ⟨b', o, rfl⟩
    · have := congrArg List.getLast? e; simp at this
    · rw [show a ++ Op.add c :: (b'.concat o) = (a ++ Op.add c :: b') ++ [o] by simp] at e
      obtain ⟨e1, e2⟩ := List.append_inj' e rfl
      simp at e2
      subst e2
      simp at hb
      exact ⟨a, b', e1, hb⟩
  · rintro ⟨a, b, rfl, hb⟩
    exact ⟨a, b ++ [.sub d k], by simp, by simp [hb]⟩

theorem connected_snoc_add {h : List Op} {c d : Conn} : Connected (h ++ [.add d]) c ↔ (Connected h c ∨ c = d) := by
  constructor
  · rintro ⟨a, b, e, hb⟩
    rcases List.eq_nil_or_concat b with rfl | ⟨b', o, rfl⟩
    · have := congrArg List.getLast? e; simp at this; exact .inr this.symm
    · rw [show a ++ Op.add c :: (b'.concat o) = (a ++ Op.add c :: b') ++ [o] by simp] at e
      obtain ⟨e1, e2⟩ := List.append_inj' e rfl
      simp at e2
      subst e2
      simp at hb
      exact .inl ⟨a, b', e1, hb⟩
  · rintro (⟨a, b, rfl, hb⟩ | rfl)
    · exact ⟨a, b ++ [.add d], by simp, by simp [hb]⟩
    · exact ⟨h, [], by simp, by simp⟩

theorem not_connected {h : List Op} {c : Conn} (ha : Op.add c ∉ h) : ¬ Connected h c := by
  rintro ⟨a, b, rfl, _⟩; simp at ha

/-- A connection that was added at most once is in the list once if it is connected, and not at all otherwise. -/
theorem count_run (h : List Op) (c : Conn) (h1 : h.count (.add c) ≤ 1) :
    (Connected h c → (run h).connections.count c = 1) ∧ (¬ Connected h c → (run h).connections.count c = 0) := by
  induction h using snocInd with
  | nil =>
    refine ⟨fun hc => ?_, fun _ => rfl⟩
    obtain ⟨a, b, e, _⟩ := hc
    simp at e
  | snoc h o ih =>
    have hle : h.count (.add c) ≤ 1 := by
      have := List.count_append (a := Op.add c) (l₁ := h) (l₂ := [o])
      omega
    have ih := ih hle
    rw [run_snoc]
    cases o with
    | add d =>
      rw [connected_snoc_add]
      simp only [apply, addConn, List.count_append]
      by_cases hd : c = d
      · subst hd
        have h0 : Op.add c ∉ h := by
          rw [List.count_append] at h1
          simp at h1
          intro hm
          have := List.count_pos_iff.2 hm
          omega
        have := ih.2 (not_connected h0)
        simp [this]
      · simpa [hd, Ne.symm hd] using ih
    | del d =>
      rw [connected_snoc_del]
      simp only [apply]
      rw [count_del]
      by_cases hd : c = d
      · subst hd
        simp
        by_cases hc : Connected h c
        · rw [ih.1 hc]
        · rw [ih.2 hc]
      · simpa [hd] using ih
    | sub d k =>
      rw [connected_snoc_sub]
      simpa [apply, subscribe] using ih

/-- The connections written to by a finished broadcast after a history: exactly once each connected, eligible one. -/
theorem writes_count {ε : Type} (h : List Op) (m : Msg) (out : Nat → Option ε) (b : Bc ε)
    (hr : Star (Bc.Step (run h) m out) (Bc.init (run h)) b) (r : Option (List ε)) (hb : b.main = .returned r)
    (c : Conn) (h1 : h.count (.add c) ≤ 1) (P : Prop) (hP : eligible (run h) m c = true ↔ P) :
    (Connected h c ∧ P → b.writes.count c = 1) ∧ (¬ (Connected h c ∧ P) → b.writes.count c = 0) := by
  have hw := (C28_error_complete (run h) m out b hr r hb).2.2
  rw [hw.count_eq]
  have hc := count_run h c h1
  by_cases he : eligible (run h) m c = true
  · rw [List.count_filter he]
    have := hP.1 he
    refine ⟨fun g => hc.1 g.1, fun g => hc.2 (fun hcc => g ⟨hcc, this⟩)⟩
  · have h0 : (((run h).connections.filter (eligible (run h) m)).count c) = 0 := by
      rw [List.count_eq_zero]
      simp [he]
    rw [h0]
    exact ⟨fun g => absurd (hP.2 g.2) he, fun _ => rfl⟩

/-- Specification of C27: the message is written to `c` exactly once if `Want` holds, and not at all otherwise. -/
def ReceivesIff (h : List Op) (m : Msg) (c : Conn) (Want : Prop) : Prop :=
  ∀ (ε : Type) (out : Nat → Option ε) (b : Bc ε), Star (Bc.Step (run h) m out) (Bc.init (run h)) b →
    ∀ r, b.main = .returned r →
      (Connected h c ∧ Want → b.writes.count c = 1) ∧ (¬ (Connected h c ∧ Want) → b.writes.count c = 0)

/-- C27. For every history of connects, disconnects and subscriptions, every message and every connection (which the
server adds at most once): audio chunks go exactly to connected AUDIO subscribers, song, chunk and pause information
exactly to connected META subscribers, volume changes exactly to connected subscribers of either, and everything else
to everyone connected — each exactly once. -/
theorem C27_audience (h : List Op) (c : Conn) (h1 : h.count (.add c) ≤ 1) :
    (∀ x, ReceivesIff h (.queueChunkRequest x) c (Subscribed h c AUDIO)) ∧
    (∀ x, ReceivesIff h (.chunkInfo x) c (Subscribed h c META)) ∧
    (∀ x, ReceivesIff h (.newSongInfo x) c (Subscribed h c META)) ∧
    (∀ x, ReceivesIff h (.pauseInfo x) c (Subscribed h c META)) ∧
    (∀ x, ReceivesIff h (.setVolumeRequest x) c (Subscribed h c AUDIO ∨ Subscribed h c META)) ∧
    (∀ m, m.mtype ∉ [.queueChunkRequest, .chunkInfo, .newSongInfo, .pauseInfo, .setVolumeRequest] →
      ReceivesIff h m c True) := by
  refine ⟨?_, ?_, ?_, ?_, ?_, ?_⟩
  · intro x ε out b hr r hb
    exact writes_count h _ out b hr r hb c h1 _ (by simp [eligible, channelOf, isSubscribed_run])
  · intro x ε out b hr r hb
    exact writes_count h _ out b hr r hb c h1 _ (by simp [eligible, channelOf, isSubscribed_run])
  · intro x ε out b hr r hb
    exact writes_count h _ out b hr r hb c h1 _ (by simp [eligible, channelOf, isSubscribed_run])
  · intro x ε out b hr r hb
    exact writes_count h _ out b hr r hb c h1 _ (by simp [eligible, channelOf, isSubscribed_run])
  · intro x ε out b hr r hb
    exact writes_count h _ out b hr r hb c h1 _ (by simp [eligible, channelOf, isSubscribed_run])
  · intro m hm ε out b hr r hb
    refine writes_count h _ out b hr r hb c h1 _ ?_
    cases m <;> simp [Msg.mtype] at hm <;> simp [eligible, channelOf]

/-- C27, with the numbers clients send (comm/packages.proto: AUDIO is 0, META is 1): who asked for 0 gets the audio and who
asked for 1 the song information, each once; who asked for nothing but the one gets none of the other. -/
theorem C27_numbers (h : List Op) (c : Conn) (h1 : h.count (.add c) ≤ 1) :
    (∀ x, ReceivesIff h (.queueChunkRequest x) c (Subscribed h c 0)) ∧
    (∀ x, ReceivesIff h (.newSongInfo x) c (Subscribed h c 1)) ∧
    (∀ x, ReceivesIff h (.chunkInfo x) c (Subscribed h c 1)) ∧
    (∀ x, ReceivesIff h (.pauseInfo x) c (Subscribed h c 1)) ∧
    ((∀ ch, Subscribed h c ch → ch = 1) → ∀ x, ReceivesIff h (.queueChunkRequest x) c False) ∧
    ((∀ ch, Subscribed h c ch → ch = 0) → ∀ x, ReceivesIff h (.newSongInfo x) c False) := by
  obtain ⟨a, b, d, e, _⟩ := C27_audience h c h1
  refine ⟨a, d, b, e, ?_, ?_⟩
  · intro ho x
    have : ¬ Subscribed h c AUDIO := fun hs => absurd (ho _ hs) (by decide)
    have := a x
    simp only [*] at this
    exact this
  · intro ho x
    have : ¬ Subscribed h c META := fun hs => absurd (ho _ hs) (by decide)
    have := d x
    simp only [*] at this
    exact this

/-- Non-vacuity: after a client disconnects, another (subscribed twice) still gets audio, and a broadcast finishes. -/
example : Connected [.add 1, .add 2, .sub 2 AUDIO, .sub 2 AUDIO, .del 1] 2 ∧
    ¬ Connected [.add 1, .add 2, .sub 2 AUDIO, .sub 2 AUDIO, .del 1] 1 ∧
    (run [.add 1, .add 2, .sub 2 AUDIO, .sub 2 AUDIO, .del 1]).connections = [2] := by
  refine ⟨⟨[.add 1], [.sub 2 AUDIO, .sub 2 AUDIO, .del 1], rfl, by decide⟩, ?_, by decide⟩
  rw [show [Op.add 1, .add 2, .sub 2 AUDIO, .sub 2 AUDIO, .del 1] = [Op.add 1, .add 2, .sub 2 AUDIO, .sub 2 AUDIO] ++ [.del 1] from rfl,
    connected_snoc_del]
  simp

/-- Non-vacuity: a broadcast to two connections of which the second fails. -/
def exSt : St := run [.add 1, .add 2, .sub 1 AUDIO, .sub 2 AUDIO]
def exMsg : Msg := .queueChunkRequest {}
def exOut : Nat → Option Nat := fun i => if i = 1 then some 77 else none

example : Star (Bc.Step exSt exMsg exOut) (Bc.init exSt) ⟨[.done, .done], [2, 1], [], [77], .returned (some [77])⟩ := by
  have s1 := Star.tail (.refl _) (Bc.Step.write (s := exSt) (m := exMsg) (out := exOut) (Bc.init exSt) 1 2 rfl rfl rfl)
  have s2 := Star.tail s1 (.write _ 0 1 rfl rfl rfl)
  have s3 := Star.tail s2 (.add _ 1 77 rfl)
  have s4 := Star.tail s3 (.ok _ 0 rfl)
  have s5 := Star.tail s4 (.wait _ rfl (by decide))
  have s6 := Star.tail s5 (.insert _ [] [] 77 rfl)
  exact Star.tail s6 (.ret _ rfl rfl)

/-! ## C51: the error collector -/

section Collector
variable {ε : Type} [DecidableEq ε]

structure CInv (s : Col ε) : Prop where
  all : ∀ e, s.adding.count e + s.errs.count e = s.added.count e
  before : ∀ e, s.before.count e ≤ s.added.count e
  passed : s.phase = .passed → ∀ e, s.before.count e ≤ s.errs.count e
  ret : ∀ r, s.phase = .returned r → (∀ e, s.before.count e ≤ (r.getD []).count e) ∧
    (∀ e, (r.getD []).count e ≤ s.added.count e) ∧ r ≠ some []

theorem cinv_step (s s' : Col ε) (h : CInv s) (hs : Col.Step s s') : CInv s' := by
  cases hs with
  | add e =>
    refine ⟨fun x => ?_, fun x => ?_, h.passed, fun r hr => ?_⟩
    · have := h.all x; simp only [List.count_append]; omega
    · have := h.before x; simp only [List.count_append]; omega
    · obtain ⟨h1, h2, h3⟩ := h.ret r hr
      exact ⟨h1, fun x => by have := h2 x; simp only [List.count_append]; omega, h3⟩
  | insert x y e he =>
    refine ⟨fun z => ?_, h.before, fun hp z => ?_, h.ret⟩
    · have := h.all z
      rw [he] at this
      simp only [List.count_append, List.count_cons, List.count_nil] at this ⊢
      omega
    · have := h.passed hp z
      simp only [List.count_append]; omega
  | call hp =>
    refine ⟨h.all, fun x => Nat.le_refl _, fun hx => by simp at hx, fun r hr => by simp at hr⟩
  | pass hp he =>
    refine ⟨h.all, h.before, fun _ x => ?_, fun r hr => by simp at hr⟩
    have h1 := h.all x
    have h2 := h.before x
    rw [he] at h1
    simp at h1
    show s.before.count x ≤ s.errs.count x
    omega
  | ret hp =>
    refine ⟨h.all, h.before, fun hx => by simp at hx, fun r hr => ?_⟩
    simp only [EPhase.returned.injEq] at hr
    have hpp := h.passed hp
    subst hr
    have hg : (if s.errs = [] then none else some s.errs : Option (List ε)).getD [] = s.errs := by
      split <;> simp_all
    rw [hg]
    refine ⟨hpp, fun x => ?_, ?_⟩
    · have := h.all x
      show s.errs.count x ≤ s.added.count x
      omega
    · split <;> simp_all

theorem cinv_star {s : Col ε} (h : Star Col.Step Col.init s) : CInv s :=
  h.inv cinv_step ⟨by simp [Col.init], by simp [Col.init], by simp [Col.init], by simp [Col.init]⟩

/-- C51. Under every interleaving of any number of `Add` calls and their goroutines with a call of `Err`: the result
contains every error whose `Add` was called before `Err`, as often as it was added, and nothing that was not added; nil
stands for no errors. -/
theorem C51_no_error_lost (s : Col ε) (h : Star Col.Step Col.init s) (r : Option (List ε)) (hr : s.phase = .returned r) :
    (∀ e, s.before.count e ≤ (r.getD []).count e) ∧ (∀ e, (r.getD []).count e ≤ s.added.count e) ∧ r ≠ some [] :=
  (cinv_star h).ret r hr

/-- C51. If no `Add` is called after `Err` was called, `Err` returns nil iff nothing was added, and otherwise exactly
the added errors in some order. -/
theorem C51_exact (s : Col ε) (h : Star Col.Step Col.init s) (r : Option (List ε)) (hr : s.phase = .returned r)
    (hq : s.added = s.before) :
    (r = none ↔ s.before = []) ∧ (∀ l, r = some l → l.Perm s.before) := by
  obtain ⟨h1, h2, h3⟩ := (cinv_star h).ret r hr
  rw [hq] at h2
  have hp : (r.getD []).Perm s.before := List.perm_iff_count.2 (fun e => Nat.le_antisymm (h2 e) (h1 e))
  refine ⟨⟨fun hn => ?_, fun hn => ?_⟩, fun l hl => ?_⟩
  · subst hn; exact (List.Perm.nil_eq hp).symm
  · rw [hn] at hp
    cases r with
    | none => rfl
    | some l => exact absurd (congrArg some (List.Perm.eq_nil hp)) h3
  · subst hl; exact hp

omit [DecidableEq ε] in
/-- C51. `Err` cannot hang: while it has not returned, some goroutine can take a step towards its return, if no new
errors are added. -/
theorem C51_progress (s : Col ε) (hp : s.phase ≠ .idle) :
    (∃ r, s.phase = .returned r) ∨ ∃ s', Col.Step s s' ∧ s'.added = s.added ∧ s'.adding.length ≤ s.adding.length ∧
      (s'.adding.length < s.adding.length ∨ s'.phase ≠ s.phase) := by
  cases hx : s.phase with
  | idle => exact absurd hx hp
  | returned r => exact .inl ⟨r, rfl⟩
  | passed => exact .inr ⟨_, .ret s hx, rfl, Nat.le_refl _, .inr (by simp)⟩
  | waiting =>
    right
    cases ha : s.adding with
    | nil => exact ⟨_, .pass s hx ha, rfl, by simp [ha], .inr (by simp)⟩
    | cons e y => exact ⟨_, .insert s [] y e ha, rfl, by simp, .inl (by simp)⟩

/-- Non-vacuity: two errors, the second inserted first, `Err` called in between. -/
example : Star Col.Step Col.init (⟨[], [2, 1], .returned (some [2, 1]), [1, 2], [1, 2]⟩ : Col Nat) := by
  have s1 := Star.tail (.refl _) (Col.Step.add Col.init 1)
  have s2 := Star.tail s1 (.add _ 2)
  have s3 := Star.tail s2 (.insert _ [1] [] 2 rfl)
  have s4 := Star.tail s3 (.call _ rfl)
  have s5 := Star.tail s4 (.insert _ [] [] 1 rfl)
  have s6 := Star.tail s5 (.pass _ rfl rfl)
  exact Star.tail s6 (.ret _ rfl)

end Collector

/-- C28, the text of the error. It lists every failure with its number, in order. -/
theorem numbered_get (es : List (List Char)) (k i : Nat) :
    (numbered k es)[i]? = es[i]?.map (fun e => (toString (k + i)).toList ++ [':', ' '] ++ e) := by
  induction es generalizing k i with
  | nil => simp [numbered]
  | cons e es ih =>
    cases i with
    | zero => simp [numbered]
    | succ i => simp [numbered, ih, Nat.add_assoc, Nat.add_comm 1 i]

theorem join_eq (sep : List Char) (l : List (List Char)) : join sep l = sep.intercalate l := by
  induction l with
  | nil => rfl
  | cons x l ih =>
    cases l with
    | nil => simp [join, List.intercalate, List.intersperse]
    | cons y r =>
      rw [join, ih]
      simp [List.intercalate, List.intersperse]

/-- The text of every broadcast error lists all failures in order, each with its index, separated by `; `, after the
base message. The number of failed clients is not filled in: the base message has a literal `%d`. -/
theorem C28_text (errs : List (List Char)) :
    ∃ listed : List (List Char),
      errorText baseMessage errs =
        "failed to send to ".toList ++ ['%', 'd'] ++ " clients: ".toList ++ ": ".toList ++ "; ".toList.intercalate listed ∧
      listed.length = errs.length ∧
      ∀ (i : Nat) (e : List Char), errs[i]? = some e → listed[i]? = some ((toString i).toList ++ ": ".toList ++ e) := by
  refine ⟨numbered 0 errs, ?_, ?_, ?_⟩
  · have : baseMessage = "failed to send to ".toList ++ ['%', 'd'] ++ " clients: ".toList := by
      show "failed to send to %d clients: ".toList = _
      rw [show "failed to send to %d clients: " = "failed to send to " ++ "%d" ++ " clients: " by decide]
      rw [String.toList_append, String.toList_append]
      rfl
    rw [errorText, this, join_eq]
    rfl
  · generalize 0 = k
    induction errs generalizing k with
    | nil => rfl
    | cons e es ih => simp [numbered, ih]
  · intro i e h
    rw [numbered_get, h]
    simp

example : (";".toList).intercalate ["a".toList, "b".toList] = "a;b".toList := by decide

/-! ## C29: dispatch -/

/-- Specification: the Go name of a handler method. -/
def Handler.name : Handler → String
  | .HandleTimeSyncRequest => "HandleTimeSyncRequest"
  | .HandleTimeSyncResponse => "HandleTimeSyncResponse"
  | .HandleQueueChunkRequest => "HandleQueueChunkRequest"
  | .HandlePingMessage => "HandlePingMessage"
  | .HandlePongMessage => "HandlePongMessage"
  | .HandleSetVolumeRequest => "HandleSetVolumeRequest"
  | .HandleSubscribeChannelRequest => "HandleSubscribeChannelRequest"
  | .HandleNewSongInfo => "HandleNewSongInfo"
  | .HandleChunkInfo => "HandleChunkInfo"
  | .HandlePauseInfo => "HandlePauseInfo"

/-- C29. A message starts exactly one handler call iff it is a top-level protocol message other than the envelope; the
handler is the one named after the message's type, and it gets the unmodified message and the sending connection. -/
theorem C29_own_handler (m : Msg) (conn : Conn) :
    (∀ c, handle m conn = some c → c.message = m ∧ c.sender = conn ∧
      typeName m.mtype = ascii "comm." ++ (ascii c.handler.name).drop 6 ∧ (ascii c.handler.name).take 6 = ascii "Handle") ∧
    (handle m conn = none ↔ m.mtype ∈ [.envelope, .songLyricsAtom, .songLyricsLine, .songMetadata]) := by
  cases m <;> simp [handle, Msg.mtype, typeName, Handler.name, ascii]

/-- What the connection's messages ask for. -/
def calls (ms : List Msg) (conn : Conn) : List Call := ms.filterMap (fun m => handle m conn)

def DInv (conn : Conn) (ms : List Msg) (d : Disp) : Prop :=
  ∃ recv, ms = recv ++ d.incoming ∧ (d.started ++ d.ran).Perm (calls recv conn)

theorem calls_snoc (ms : List Msg) (m : Msg) (conn : Conn) :
    calls (ms ++ [m]) conn = calls ms conn ++ (handle m conn).toList := by
  simp only [calls, List.filterMap_append]
  congr 1

theorem dinv_step (conn : Conn) (ms : List Msg) (d d' : Disp) (h : DInv conn ms d) (hs : Disp.Step conn d d') :
    DInv conn ms d' := by
  obtain ⟨recv, e, hp⟩ := h
  cases hs with
  | receive m ms' hi =>
    refine ⟨recv ++ [m], by rw [e, hi]; simp, ?_⟩
    rw [calls_snoc]
    simp only [List.append_assoc]
    refine List.Perm.trans ?_ (List.Perm.append_right _ hp)
    rw [List.append_assoc]
    exact List.Perm.append_left _ List.perm_append_comm
  | run x y c hc =>
    refine ⟨recv, e, List.Perm.trans ?_ hp⟩
    rw [hc]
    simp only [List.append_assoc, List.cons_append]
    refine List.Perm.append_left x ?_
    rw [← List.append_assoc]
    refine List.perm_append_comm.trans ?_
    simp

theorem disp_inv {conn : Conn} {ms : List Msg} {d : Disp} (h : Star (Disp.Step conn) ⟨ms, [], []⟩ d) :
    DInv conn ms d :=
  h.inv (dinv_step conn ms) ⟨[], by simp, by simp [calls]⟩

/-- C29. However the handler goroutines are scheduled: once everything has arrived and every goroutine has run, the
handler calls made are exactly those for the received messages, each once. -/
theorem C29_each_once (conn : Conn) (ms : List Msg) (d : Disp) (h : Star (Disp.Step conn) ⟨ms, [], []⟩ d)
    (h1 : d.incoming = []) (h2 : d.started = []) : d.ran.Perm (ms.filterMap (fun m => handle m conn)) := by
  obtain ⟨recv, e, hp⟩ := disp_inv h
  rw [h1, List.append_nil] at e
  rw [h2, List.nil_append] at hp
  rw [e]
  exact hp

/-- C29, the server: a time-sync request is answered on the requesting connection with its own send time and the two
clock readings; a ping with a pong on its connection. -/
theorem C29_server_replies (t1 t2 : Int64) (ready : Bool) (conn : Conn) :
    (∀ r c, handle (.timeSyncRequest r) conn = some c →
      serverEffects t1 t2 ready c = [.write conn (.timeSyncResponse ⟨r.clientSend, t1, t2⟩)]) ∧
    (∀ c, handle .pingMessage conn = some c → serverEffects t1 t2 ready c = [.write conn .pongMessage]) ∧
    (∀ r c, handle (.subscribeChannelRequest r) conn = some c → serverEffects t1 t2 true c =
      [.subscribe conn r.channel, .newClient r.channel conn]) := by
  refine ⟨?_, ?_, ?_⟩ <;> intros <;> simp_all [handle] <;> subst_vars <;> rfl

/-- C29, the server sends nothing in response to any other message. -/
theorem C29_server_silent (t1 t2 : Int64) (ready : Bool) (m : Msg) (conn : Conn) (c : Call) (h : handle m conn = some c)
    (hm : m.mtype ∉ [.timeSyncRequest, .pingMessage, .subscribeChannelRequest]) : serverEffects t1 t2 ready c = [] := by
  cases m <;> simp [Msg.mtype] at hm <;> simp [handle] at h <;> subst h <;> rfl

/-- C57, refuted: a subscription that is handled before the server has finished starting crashes it. -/
theorem C57_early_subscribe_crashes (t1 t2 : Int64) (r : SubscribeChannelRequest) (conn : Conn) (c : Call)
    (h : handle (.subscribeChannelRequest r) conn = some c) : Effect.crash ∈ serverEffects t1 t2 false c := by
  simp [handle] at h; subst h; simp [serverEffects]

/-- Every order of the handler calls is possible. -/
theorem any_order (conn : Conn) (ms : List Msg) (order : List Call) (hp : order.Perm (calls ms conn)) :
    Star (Disp.Step conn) ⟨ms, [], []⟩ ⟨[], [], order⟩ := by
  have h1 : ∀ (ms : List Msg) (s : List Call), Star (Disp.Step conn) ⟨ms, s, []⟩ ⟨[], s ++ calls ms conn, []⟩ := by
    intro ms
    induction ms using snocInd with
    | nil => intro s; simpa [calls] using Star.refl _
    | snoc ms m ih =>
      intro s
      have shift : ∀ a b, Star (Disp.Step conn) a b → Star (Disp.Step conn) ⟨a.incoming ++ [m], a.started, a.ran⟩
          ⟨b.incoming ++ [m], b.started, b.ran⟩ := by
        intro a b h
        induction h with
        | refl => exact .refl _
        | tail _ hs ih =>
          refine .tail ih ?_
          cases hs with
          | receive x xs hx => exact .receive _ x (xs ++ [m]) (by simp [hx])
          | run x y c hc => exact .run _ x y c hc
      have := shift _ _ (ih s)
      refine .tail this ?_
      have hr := Disp.Step.receive (conn := conn) ⟨[] ++ [m], s ++ calls ms conn, []⟩ m [] rfl
      rw [calls_snoc, ← List.append_assoc]
      exact hr
  have trans : ∀ {a b c : Disp}, Star (Disp.Step conn) a b → Star (Disp.Step conn) b c → Star (Disp.Step conn) a c := by
    intro a b c hab hbc
    induction hbc with
    | refl => exact hab
    | tail _ hs ih => exact .tail ih hs
  have h2 : ∀ (order started ran : List Call), order.Perm started →
      Star (Disp.Step conn) ⟨[], started, ran⟩ ⟨[], [], ran ++ order⟩ := by
    intro order
    induction order with
    | nil => intro started ran hp; rw [← List.Perm.nil_eq hp]; simpa using Star.refl _
    | cons c order ih =>
      intro started ran hp
      have hm : c ∈ started := hp.subset (by simp)
      obtain ⟨x, y, rfl⟩ := List.append_of_mem hm
      have hp' : order.Perm (x ++ y) := (hp.trans List.perm_middle).cons_inv
      have := ih (x ++ y) (ran ++ [c]) hp'
      rw [List.append_assoc] at this
      exact trans (.tail (.refl _) (.run _ x y c rfl)) this
  have := trans (h1 ms []) (h2 order (calls ms conn) [] (by simpa using hp))
  simpa using this

/-- C56, refuted: the last volume need not win. The server sends volume `a` and then `b`; there is an execution of the
player in which both messages are handled and the volume ends up as `a`. -/
theorem C56_volume_reordered (conn : Conn) (v a b : UInt64) :
    ∃ d, Star (Disp.Step conn) ⟨[.setVolumeRequest ⟨a⟩, .setVolumeRequest ⟨b⟩], [], []⟩ d ∧ d.incoming = [] ∧
      d.started = [] ∧ playerVolume v d.ran = a :=
  ⟨_, any_order conn _ [⟨.HandleSetVolumeRequest, .setVolumeRequest ⟨b⟩, conn⟩,
      ⟨.HandleSetVolumeRequest, .setVolumeRequest ⟨a⟩, conn⟩] (List.Perm.swap _ _ _), rfl, rfl, rfl⟩

/-- C56, partial: the player always ends at some volume that was sent (if any was). -/
theorem C56_some_sent_volume_partial (conn : Conn) (v : UInt64) (ms : List Msg) (d : Disp)
    (h : Star (Disp.Step conn) ⟨ms, [], []⟩ d) :
    playerVolume v d.ran = v ∨ ∃ r, Msg.setVolumeRequest r ∈ ms ∧ playerVolume v d.ran = r.volume := by
  obtain ⟨recv, e, hp⟩ := disp_inv h
  have hmem : ∀ c ∈ d.ran, ∃ m ∈ ms, handle m conn = some c := by
    intro c hc
    have : c ∈ calls recv conn := hp.subset (List.mem_append.2 (.inr hc))
    simp only [calls, List.mem_filterMap] at this
    obtain ⟨m, hm, hh⟩ := this
    exact ⟨m, by rw [e]; simp [hm], hh⟩
  generalize d.ran = ran at *
  clear h hp e
  induction ran using snocInd with
  | nil => exact .inl rfl
  | snoc ran c ih =>
    have ih := ih (fun x hx => hmem x (by simp [hx]))
    obtain ⟨m, hm, hh⟩ := hmem c (by simp)
    simp only [playerVolume, List.foldl_append, List.foldl_cons, List.foldl_nil] at ih ⊢
    split
    · rename_i h1 h2
      right
      have := ((C29_own_handler m conn).1 c hh).1
      rw [h2] at this
      exact ⟨_, this ▸ hm, rfl⟩
    · exact ih

/-- C56, partial: with one volume message among the received ones, the player ends at that volume. -/
theorem C56_single_volume_partial (conn : Conn) (v w : UInt64) (ms : List Msg) (d : Disp)
    (h : Star (Disp.Step conn) ⟨ms, [], []⟩ d) (h1 : d.incoming = []) (h2 : d.started = [])
    (hone : ∀ r, Msg.setVolumeRequest r ∈ ms → r.volume = w) (hex : Msg.setVolumeRequest ⟨w⟩ ∈ ms) :
    playerVolume v d.ran = w := by
  have hp := C29_each_once conn ms d h h1 h2
  have hmem : (⟨.HandleSetVolumeRequest, .setVolumeRequest ⟨w⟩, conn⟩ : Call) ∈ d.ran := by
    refine hp.symm.subset ?_
    rw [List.mem_filterMap]
    exact ⟨_, hex, rfl⟩
  have hall : ∀ c ∈ d.ran, ∃ m ∈ ms, handle m conn = some c := by
    intro c hc
    have := hp.subset hc
    simpa [List.mem_filterMap] using this
  clear hp h h1 h2
  generalize d.ran = ran at *
  induction ran using snocInd with
  | nil => simp at hmem
  | snoc ran c ih =>
    obtain ⟨m, hm, hh⟩ := hall c (by simp)
    simp only [playerVolume, List.foldl_append, List.foldl_cons, List.foldl_nil] at ih ⊢
    split
    · rename_i r h1 h2
      have := ((C29_own_handler m conn).1 c hh).1
      rw [h2] at this
      exact hone r (this ▸ hm)
    · rename_i hno
      rcases List.mem_append.1 hmem with hin | hin
      · exact ih hin (fun x hx => hall x (by simp [hx]))
      · simp at hin
        subst hin
        exact (hno _ rfl rfl).elim

/-- Volume messages, and calls of the volume handler. -/
def isVolumeMsg : Msg → Bool
  | .setVolumeRequest _ => true
  | _ => false

/-- C56, partial: the last volume wins if the earlier volume messages have been handled when it arrives, whatever else is
under way then, and however the handlers of all other messages are scheduled.
Missing from the full property: a volume message that arrives while an earlier one is being handled
(`C56_volume_reordered`). -/
theorem C56_last_wins_partial (conn : Conn) (v w : UInt64) (ms : List Msg) (d0 d : Disp)
    (_h0 : Star (Disp.Step conn) ⟨ms, [], []⟩ d0) (rest : List Msg) (hin : d0.incoming = .setVolumeRequest ⟨w⟩ :: rest)
    (hrest : ∀ m ∈ rest, isVolumeMsg m = false) (hidle : ∀ c ∈ d0.started, isVolumeMsg c.message = false)
    (h : Star (Disp.Step conn) d0 d) (h1 : d.incoming = []) (h2 : d.started = []) : playerVolume v d.ran = w := by
  let P : Disp → Prop := fun d =>
    (∃ r, d.incoming = .setVolumeRequest ⟨w⟩ :: r ∧ (∀ m ∈ r, isVolumeMsg m = false) ∧
      ∀ c ∈ d.started, isVolumeMsg c.message = false) ∨
    ((∀ m ∈ d.incoming, isVolumeMsg m = false) ∧
      (∀ c ∈ d.started, isVolumeMsg c.message = true → c = ⟨.HandleSetVolumeRequest, .setVolumeRequest ⟨w⟩, conn⟩) ∧
      ((∃ c ∈ d.started, isVolumeMsg c.message = true) ∨ playerVolume v d.ran = w))
  have hmsg : ∀ m c, handle m conn = some c → c.message = m := fun m c hc => ((C29_own_handler m conn).1 c hc).1
  have keep : ∀ ran c, isVolumeMsg c.message = false → playerVolume v (ran ++ [c]) = playerVolume v ran := by
    intro ran c hc
    simp only [playerVolume, List.foldl_append, List.foldl_cons, List.foldl_nil]
    split
    · rename_i hm; rw [hm] at hc; simp [isVolumeMsg] at hc
    · rfl
  have hP : P d := by
    refine h.inv ?_ (Or.inl ⟨rest, hin, hrest, hidle⟩)
    intro a b ha hs
    cases hs with
    | receive m ms hm =>
      rcases ha with ⟨r, e, hr, hi⟩ | ⟨hi, hst, hd⟩
      · rw [hm] at e
        simp only [List.cons.injEq] at e
        obtain ⟨rfl, rfl⟩ := e
        refine Or.inr ⟨hr, ?_, Or.inl ⟨⟨.HandleSetVolumeRequest, .setVolumeRequest ⟨w⟩, conn⟩, by simp [handle], rfl⟩⟩
        intro c hc hv
        rcases List.mem_append.1 hc with hc | hc
        · rw [hi c hc] at hv; simp at hv
        · simpa [handle] using hc
      · rw [hm] at hi
        refine Or.inr ⟨fun x hx => hi x (List.mem_cons_of_mem _ hx), ?_, ?_⟩
        · intro c hc hv
          rcases List.mem_append.1 hc with hc | hc
          · exact hst c hc hv
          · have : handle m conn = some c := by simpa using hc
            rw [hmsg m c this, hi m (by simp)] at hv
            simp at hv
        · rcases hd with ⟨c, hc, hv⟩ | hd
          · exact Or.inl ⟨c, List.mem_append_left _ hc, hv⟩
          · exact Or.inr hd
    | run x y c hc =>
      rcases ha with ⟨r, e, hr, hi⟩ | ⟨hi, hst, hd⟩
      · refine Or.inl ⟨r, e, hr, ?_⟩
        intro c' hc'
        refine hi c' ?_
        rw [hc]
        rcases List.mem_append.1 hc' with h | h <;> simp [h]
      · refine Or.inr ⟨hi, ?_, ?_⟩
        · intro c' hc' hv
          refine hst c' ?_ hv
          rw [hc]
          rcases List.mem_append.1 hc' with h | h <;> simp [h]
        · cases hcv : isVolumeMsg c.message with
          | true =>
            right
            have := hst c (by rw [hc]; simp) hcv
            subst this
            simp [playerVolume]
          | false =>
            rcases hd with ⟨c', hc', hv⟩ | hd
            · left
              refine ⟨c', ?_, hv⟩
              rw [hc] at hc'
              rcases List.mem_append.1 hc' with h | h
              · simp [h]
              · rcases List.mem_cons.1 h with rfl | h
                · rw [hcv] at hv; simp at hv
                · simp [h]
            · right
              simp only
              rw [keep _ _ hcv]; exact hd
  rcases hP with ⟨r, e, -⟩ | ⟨-, -, hd⟩
  · rw [h1] at e; simp at e
  · rcases hd with ⟨c, hc, -⟩ | hd
    · rw [h2] at hc; simp at hc
    · exact hd

/-- Non-vacuity: volume 1, handled, then volume 2. -/
example (conn : Conn) : ∃ d0 d, Star (Disp.Step conn) ⟨[.setVolumeRequest ⟨1⟩, .pingMessage, .setVolumeRequest ⟨2⟩, .pongMessage], [], []⟩ d0 ∧
    d0.incoming = [.setVolumeRequest ⟨2⟩, .pongMessage] ∧ d0.started.length = 1 ∧
    (∀ c ∈ d0.started, isVolumeMsg c.message = false) ∧ Star (Disp.Step conn) d0 d ∧ d.incoming = [] ∧ d.started = [] := by
  refine ⟨⟨[.setVolumeRequest ⟨2⟩, .pongMessage], [⟨.HandlePingMessage, .pingMessage, conn⟩],
      [⟨.HandleSetVolumeRequest, .setVolumeRequest ⟨1⟩, conn⟩]⟩,
    ⟨[], [], [⟨.HandleSetVolumeRequest, .setVolumeRequest ⟨1⟩, conn⟩, ⟨.HandleSetVolumeRequest, .setVolumeRequest ⟨2⟩, conn⟩,
      ⟨.HandlePingMessage, .pingMessage, conn⟩, ⟨.HandlePongMessage, .pongMessage, conn⟩]⟩, ?_, rfl, rfl, ?_, ?_, rfl, rfl⟩
  · exact .tail (.tail (.tail (.refl _) (.receive _ _ _ rfl)) (.receive _ _ _ rfl)) (.run _ [] [⟨.HandlePingMessage, .pingMessage, conn⟩] _ rfl)
  · simp [isVolumeMsg]
  · refine .tail (.tail (.tail (.tail (.tail (.refl _) (.receive _ _ _ rfl)) (.receive _ _ _ rfl))
      (.run _ [⟨.HandlePingMessage, .pingMessage, conn⟩] [⟨.HandlePongMessage, .pongMessage, conn⟩] _ rfl))
      (.run _ [] [⟨.HandlePongMessage, .pongMessage, conn⟩] _ rfl)) (.run _ [] [] _ rfl)

end MS.Sender
