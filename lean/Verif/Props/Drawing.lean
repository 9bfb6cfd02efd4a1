import Verif.Props.Display
/-!
# Properties C48, C67, C68: drawing
-/
set_option linter.unusedSimpArgs false
namespace MS.Display

/-! ## Cells -/

theorem cell_nil (u v : Int) : cell [] u v = none := rfl

theorem cell_append (a b : List Write) (u v : Int) : cell (a ++ b) u v = (cell b u v).or (cell a u v) := by
  simp only [cell, List.reverse_append, List.find?_append]
  cases List.find? (fun w => decide (w.x = u) && decide (w.y = v)) b.reverse <;> rfl

theorem cell_single (w : Write) (u v : Int) : cell [w] u v = if w.x = u ∧ w.y = v then some w.rune else none := by
  by_cases h : w.x = u ∧ w.y = v
  · simp [cell, h]
  · simp only [cell, List.reverse_singleton, List.find?_cons, List.find?_nil]
    rw [if_neg h]
    by_cases h1 : w.x = u
    · simp [h1, show ¬ w.y = v from fun h2 => h ⟨h1, h2⟩]
    · simp [h1]

theorem cell_cons (w : Write) (ws : List Write) (u v : Int) :
    cell (w :: ws) u v = (cell ws u v).or (if w.x = u ∧ w.y = v then some w.rune else none) := by
  rw [← List.singleton_append, cell_append, cell_single]

theorem cell_none {ws : List Write} {u v : Int} (h : ∀ w ∈ ws, ¬ (w.x = u ∧ w.y = v)) : cell ws u v = none := by
  induction ws with
  | nil => rfl
  | cons w ws ih => rw [cell_cons, ih (fun x hx => h x (List.mem_cons_of_mem _ hx)), if_neg (h w (by simp))]; rfl

/-- A cell written with one rune only shows it. -/
theorem cell_all {ws : List Write} {u v : Int} {c : Char} (h : ∀ w ∈ ws, w.x = u ∧ w.y = v → w.rune = c) :
    cell ws u v = if (∃ w ∈ ws, w.x = u ∧ w.y = v) then some c else none := by
  induction ws with
  | nil => simp [cell_nil]
  | cons w ws ih =>
    have ih := ih (fun x hx => h x (List.mem_cons_of_mem _ hx))
    rw [cell_cons, ih]
    by_cases h1 : ∃ w ∈ ws, w.x = u ∧ w.y = v
    · obtain ⟨z, hz, e⟩ := h1
      rw [if_pos (show ∃ w ∈ ws, w.x = u ∧ w.y = v from ⟨z, hz, e⟩),
        if_pos (show ∃ a ∈ w :: ws, a.x = u ∧ a.y = v from ⟨z, by simp [hz], e⟩)]; rfl
    · rw [if_neg h1]
      by_cases h2 : w.x = u ∧ w.y = v
      · rw [if_pos h2, if_pos (show ∃ a ∈ w :: ws, a.x = u ∧ a.y = v from ⟨w, by simp, h2⟩), h w (by simp) h2]; rfl
      · rw [if_neg h2, if_neg]
        · rfl
        · rintro ⟨z, hz, e⟩
          rcases List.mem_cons.1 hz with rfl | hz
          · exact h2 e
          · exact h1 ⟨z, hz, e⟩

/-! ## C48: the progress bar -/

/-- The rune of the cell `i` of a bar. -/
def barRune (length : Int) (p : Rat) (i : Int) : Char :=
  if i < p.floor then '█' else if p.floor = i then (progressHead length p).2.2.1 else ' '

theorem cell_progress (x y length : Int) (p : Rat) (u v : Int) : cell (drawProgress x y length p) u v =
    if v = y ∧ x ≤ u ∧ u < x + length then some (barRune length p (u - x)) else none := by
  have hd : drawProgress x y length p = (List.range length.toNat).map fun (i : Nat) => ⟨x + i, y, barRune length p i⟩ := rfl
  rw [hd, cell_all (c := barRune length p (u - x))]
  · congr 1
    simp only [List.mem_map, List.mem_range, eq_iff_iff]
    constructor
    · rintro ⟨w, ⟨i, hi, rfl⟩, h1, h2⟩
      simp only at h1 h2
      refine ⟨h2.symm, ?_, ?_⟩ <;> omega
    · rintro ⟨h1, h2, h3⟩
      refine ⟨_, ⟨(u - x).toNat, by omega, rfl⟩, ?_, h1.symm⟩
      simp only; omega
  · intro w hw
    simp only [List.mem_map, List.mem_range] at hw
    obtain ⟨i, hi, rfl⟩ := hw
    rintro ⟨h1, h2⟩
    simp only at h1 ⊢
    rw [show u - x = (i : Int) by omega]

/-- Specification: the number of full cells of a bar that is drawn on an empty window. -/
def fullCells (x y length : Int) (p : Rat) : Nat :=
  ((List.range length.toNat).filter fun (i : Nat) => cell (drawProgress x y length p) (x + i) y = some '█').length

/-- How many cells are full: those before the head, and the head if it is the last one or at least 0.7 of a cell. -/
def fullTo (length : Int) (p : Rat) : Int := if (progressHead length p).2.2.1 = '█' then p.floor + 1 else p.floor

theorem barRune_full (length : Int) (p : Rat) (i : Int) : barRune length p i = '█' ↔ i < fullTo length p := by
  unfold barRune fullTo
  by_cases h : (progressHead length p).2.2.1 = '█'
  · rw [if_pos h]
    by_cases h1 : i < p.floor
    · rw [if_pos h1]; simp; omega
    · rw [if_neg h1]
      by_cases h2 : p.floor = i
      · rw [if_pos h2]; simp [h]; omega
      · rw [if_neg h2]
        have : ¬ ((' ' : Char) = '█') := by decide
        simp only [this, false_iff]; omega
  · rw [if_neg h]
    by_cases h1 : i < p.floor
    · rw [if_pos h1]; simp; omega
    · rw [if_neg h1]
      by_cases h2 : p.floor = i
      · rw [if_pos h2]; simp only [h, false_iff]; omega
      · rw [if_neg h2]
        have : ¬ ((' ' : Char) = '█') := by decide
        simp only [this, false_iff]; omega

theorem length_filter_lt (n : Nat) (k : Int) :
    (((List.range n).filter fun (i : Nat) => decide ((i : Int) < k)).length : Int) = max 0 (min (n : Int) k) := by
  induction n with
  | zero => simp only [List.range_zero, List.filter_nil, List.length_nil]; omega
  | succ n ih =>
    rw [List.range_succ, List.filter_append, List.length_append, Int.natCast_add, ih]
    by_cases h : (n : Int) < k <;> simp [h] <;> omega

theorem fullCells_eq (x y length : Int) (p : Rat) : (fullCells x y length p : Int) = max 0 (min length (fullTo length p)) := by
  unfold fullCells
  have e : (List.range length.toNat).filter (fun (i : Nat) => decide (cell (drawProgress x y length p) (x + i) y = some '█')) =
      (List.range length.toNat).filter fun (i : Nat) => decide ((i : Int) < fullTo length p) := by
    apply List.filter_congr
    intro i hi
    rw [List.mem_range] at hi
    rw [cell_progress, if_pos ⟨rfl, by omega, by omega⟩, show x + (i : Int) - x = i by omega]
    simp only [Option.some.injEq, barRune_full]
  rw [e, length_filter_lt]
  omega

theorem headRune_cases (length : Int) (p : Rat) : (progressHead length p).2.2.1 = '█' ∨ (progressHead length p).2.2.1 = '▌' ∨
    (progressHead length p).2.2.1 = ' ' := by
  unfold progressHead
  simp only
  split
  · simp
  · split
    · simp
    · split <;> simp

/-- C48: a bar writes exactly its own cells, each once; the full cells are the first ones, at most one cell after them is
half full, the others are empty. -/
theorem C48_progress (x y length : Int) (p : Rat) :
    (drawProgress x y length p).length = length.toNat ∧
    (∀ u v, (cell (drawProgress x y length p) u v).isSome ↔ v = y ∧ x ≤ u ∧ u < x + length) ∧
    ∀ i, 0 ≤ i → i < length →
      (i < fullCells x y length p → cell (drawProgress x y length p) (x + i) y = some '█') ∧
      (i = fullCells x y length p → cell (drawProgress x y length p) (x + i) y = some '▌' ∨
        cell (drawProgress x y length p) (x + i) y = some ' ') ∧
      (fullCells x y length p < i → cell (drawProgress x y length p) (x + i) y = some ' ') := by
  refine ⟨by simp [drawProgress], ?_, ?_⟩
  · intro u v
    rw [cell_progress]
    by_cases h : v = y ∧ x ≤ u ∧ u < x + length
    · simp [h]
    · rw [if_neg h]; simp only [Option.isSome_none, Bool.false_eq_true, false_iff]; exact h
  · intro i h0 h1
    rw [cell_progress, if_pos ⟨rfl, by omega, by omega⟩, show x + i - x = i by omega, fullCells_eq]
    simp only [Option.some.injEq]
    have hf := barRune_full length p i
    refine ⟨fun h => hf.2 (by omega), fun h => ?_, fun h => ?_⟩
    · have hn : ¬ barRune length p i = '█' := fun hx => by have := hf.1 hx; omega
      unfold barRune at hn ⊢
      by_cases h2 : i < p.floor
      · simp [h2] at hn
      · rw [if_neg h2] at hn ⊢
        by_cases h3 : p.floor = i
        · rw [if_pos h3] at hn ⊢
          rcases headRune_cases length p with hx | hx | hx
          · exact absurd hx hn
          · exact .inl hx
          · exact .inr hx
        · rw [if_neg h3]; simp
    · have hn : ¬ barRune length p i = '█' := fun hx => by have := hf.1 hx; omega
      unfold barRune at hn ⊢
      unfold fullTo at h
      by_cases h2 : i < p.floor
      · simp [h2] at hn
      · rw [if_neg h2]
        rw [if_neg]
        split at h <;> omega

theorem modf_nonneg {p : Rat} (h : 0 ≤ p) : modf p = p - p.floor := by simp [modf, h]

theorem head_full_iff (length : Int) (p : Rat) :
    (progressHead length p).2.2.1 = '█' ↔ p.floor = length - 1 ∨ c07 ≤ modf p := by
  unfold progressHead
  simp only
  by_cases h : p.floor = length - 1
  · simp [h]
  · rw [if_neg h]
    by_cases h1 : modf p < c03
    · rw [if_pos h1]
      have : ¬ ((' ' : Char) = '█') := by decide
      simp only [this, h, false_or, false_iff]
      have k : c03 < c07 := by unfold c03 c07; grind
      grind
    · rw [if_neg h1]
      by_cases h2 : modf p < c07
      · rw [if_pos h2]
        have : ¬ (('▌' : Char) = '█') := by decide
        simp only [this, h, false_or, false_iff]
        grind
      · rw [if_neg h2]
        simp only [h, false_or, true_iff]
        grind

theorem floor_nonneg {p : Rat} (h : 0 ≤ p) : 0 ≤ p.floor := Rat.le_floor_iff.2 (by simpa using h)
theorem floor_neg {p : Rat} (h : p < 0) : p.floor < 0 := Rat.floor_lt_iff.2 (by simpa using h)

/-- C48: the bar grows with the progress. -/
theorem C48_grows (x y length : Int) (p q : Rat) (h : p ≤ q) : fullCells x y length p ≤ fullCells x y length q := by
  have e1 := fullCells_eq x y length p
  have e2 := fullCells_eq x y length q
  have hf := Rat.floor_monotone h
  have key : max 0 (min length (fullTo length p)) ≤ max 0 (min length (fullTo length q)) := by
    unfold fullTo
    by_cases hp : (progressHead length p).2.2.1 = '█'
    · rw [if_pos hp]
      by_cases hlt : p.floor < q.floor
      · split <;> omega
      · have he : p.floor = q.floor := by omega
        by_cases hq : (progressHead length q).2.2.1 = '█'
        · rw [if_pos hq]; omega
        · rw [if_neg hq]
          rw [head_full_iff] at hp hq
          by_cases h0 : 0 ≤ p
          · have h1 : 0 ≤ q := Rat.le_trans h0 h
            rw [modf_nonneg h0] at hp
            rw [modf_nonneg h1] at hq
            exfalso
            apply hq
            rcases hp with hp | hp
            · left; omega
            · right; rw [← he]; grind
          · have : p.floor < 0 := floor_neg (Rat.not_le.1 h0)
            omega
    · rw [if_neg hp]
      split <;> omega
  omega

/-- C48: the bar is true to the progress: between 0 and the length, the number of full cells is within 0.7 cells of it
(plus 10^-15 on one side: the code compares with the float64 next to 0.7),
except that the last cell is full as soon as it is reached; at the end the bar is full. -/
theorem C48_accurate (x y length : Int) (p : Rat) (h0 : 0 ≤ p) (h1 : p ≤ length) :
    (p < ((length - 1 : Int) : Rat) → (p - 7 / 10 < (fullCells x y length p : Int)) ∧
      (((fullCells x y length p : Int) : Rat) ≤ p + 3 / 10 + 1 / 10 ^ 15)) ∧
    (((length - 1 : Int) : Rat) ≤ p → (fullCells x y length p : Int) = length) := by
  have e := fullCells_eq x y length p
  have hfl := floor_nonneg h0
  have k1 : c07 ≤ 7 / 10 := by unfold c07; grind
  have k2 : 7 / 10 ≤ c07 + 1 / 10 ^ 15 := by unfold c07; grind
  have hlen : (0 : Int) ≤ length := by
    have := Rat.le_trans h0 h1
    have := floor_nonneg this
    rwa [Rat.floor_intCast] at this
  have hb1 := Rat.floor_le p
  have hb2 := Rat.lt_floor_add_one p
  constructor
  · intro hlt
    have hh : p.floor < length - 1 := Rat.floor_lt_iff.2 hlt
    have hiff := head_full_iff length p
    rw [modf_nonneg h0] at hiff
    by_cases hp : (progressHead length p).2.2.1 = '█'
    · have hc := hiff.1 hp
      have hc : c07 ≤ p - p.floor := by
        rcases hc with hc | hc
        · omega
        · exact hc
      have : (fullCells x y length p : Int) = p.floor + 1 := by
        rw [e, fullTo, if_pos hp]; omega
      rw [this]
      rw [Rat.intCast_add] at hb2 ⊢
      constructor <;> grind
    · have hc : p - p.floor < c07 := by
        apply Rat.not_le.1
        intro h; exact hp (hiff.2 (.inr h))
      have : (fullCells x y length p : Int) = p.floor := by
        rw [e, fullTo, if_neg hp]; omega
      rw [this]
      constructor <;> grind
  · intro hge
    have hh : length - 1 ≤ p.floor := Rat.le_floor_iff.2 hge
    rw [e, fullTo]
    by_cases hp : (progressHead length p).2.2.1 = '█'
    · rw [if_pos hp]; omega
    · rw [if_neg hp]
      have : p.floor ≠ length - 1 := fun h => hp ((head_full_iff length p).2 (.inl h))
      omega

/-! ## C48: boxes -/

/-- Specification: the frame of the rectangle with the corner `(x, y)` and the size `w` x `h`. -/
def frame (x y w h u v : Int) : Option Char :=
  if u = x ∧ v = y then some '╔'
  else if u = x + w - 1 ∧ v = y then some '╗'
  else if u = x ∧ v = y + h - 1 then some '╚'
  else if u = x + w - 1 ∧ v = y + h - 1 then some '╝'
  else if (u = x ∨ u = x + w - 1) ∧ y < v ∧ v < y + h - 1 then some '║'
  else if (v = y ∨ v = y + h - 1) ∧ x < u ∧ u < x + w - 1 then some '═'
  else none

theorem cell_rows (x y w h u v : Int) :
    cell ((List.range w.toNat).flatMap fun (i : Nat) => [⟨x + i, y + h - 1, '═'⟩, ⟨x + i, y, '═'⟩]) u v =
      if (v = y ∨ v = y + h - 1) ∧ x ≤ u ∧ u < x + w then some '═' else none := by
  rw [cell_all (c := '═')]
  · congr 1
    simp only [List.mem_flatMap, List.mem_range, List.mem_cons, List.not_mem_nil, or_false, eq_iff_iff]
    constructor
    · rintro ⟨w, ⟨i, hi, rfl | rfl⟩, h1, h2⟩ <;> simp only at h1 h2 <;> refine ⟨by omega, by omega, by omega⟩
    · rintro ⟨h1, h2, h3⟩
      rcases h1 with h1 | h1
      · exact ⟨_, ⟨(u - x).toNat, by omega, .inr rfl⟩, by simp only; omega, h1.symm⟩
      · exact ⟨_, ⟨(u - x).toNat, by omega, .inl rfl⟩, by simp only; omega, h1.symm⟩
  · intro z hz _
    simp only [List.mem_flatMap, List.mem_range, List.mem_cons, List.not_mem_nil, or_false] at hz
    obtain ⟨i, hi, rfl | rfl⟩ := hz <;> rfl

theorem cell_cols (x y w h u v : Int) :
    cell ((List.range h.toNat).flatMap fun (j : Nat) => [⟨x, y + j, '║'⟩, ⟨x + w - 1, y + j, '║'⟩]) u v =
      if (u = x ∨ u = x + w - 1) ∧ y ≤ v ∧ v < y + h then some '║' else none := by
  rw [cell_all (c := '║')]
  · congr 1
    simp only [List.mem_flatMap, List.mem_range, List.mem_cons, List.not_mem_nil, or_false, eq_iff_iff]
    constructor
    · rintro ⟨w, ⟨i, hi, rfl | rfl⟩, h1, h2⟩ <;> simp only at h1 h2 <;> refine ⟨by omega, by omega, by omega⟩
    · rintro ⟨h1, h2, h3⟩
      rcases h1 with h1 | h1
      · exact ⟨_, ⟨(v - y).toNat, by omega, .inl rfl⟩, h1.symm, by simp only; omega⟩
      · exact ⟨_, ⟨(v - y).toNat, by omega, .inr rfl⟩, h1.symm, by simp only; omega⟩
  · intro z hz _
    simp only [List.mem_flatMap, List.mem_range, List.mem_cons, List.not_mem_nil, or_false] at hz
    obtain ⟨i, hi, rfl | rfl⟩ := hz <;> rfl

theorem or_ite {p : Prop} [Decidable p] (c : Char) (o' o : Option Char) :
    (if p then some c else o').or o = if p then some c else o'.or o := by split <;> rfl

theorem cell_box (x y w h u v : Int) : cell (drawBox x y w h) u v =
    if u = x + w - 1 ∧ v = y + h - 1 then some '╝'
    else if u = x ∧ v = y + h - 1 then some '╚'
    else if u = x + w - 1 ∧ v = y then some '╗'
    else if u = x ∧ v = y then some '╔'
    else if (u = x ∨ u = x + w - 1) ∧ y ≤ v ∧ v < y + h then some '║'
    else if (v = y ∨ v = y + h - 1) ∧ x ≤ u ∧ u < x + w then some '═'
    else none := by
  unfold drawBox
  rw [cell_append, cell_append, cell_rows, cell_cols]
  simp only [cell_cons, cell_nil, Option.none_or, or_ite, Option.or_assoc, @eq_comm Int _ u, @eq_comm Int _ v]

/-- C48: a box draws the frame of its rectangle and nothing else. -/
theorem C48_box (x y w h : Int) (hw : 2 ≤ w) (hh : 2 ≤ h) (u v : Int) : cell (drawBox x y w h) u v = frame x y w h u v := by
  rw [cell_box]
  unfold frame
  repeat' split
  all_goals first | rfl | omega | skip

/-- C48: degenerate boxes, too, stay inside their rectangle. -/
theorem C48_box_inside (x y w h : Int) (hw : 1 ≤ w) (hh : 1 ≤ h) (u v : Int) (hs : (cell (drawBox x y w h) u v).isSome) :
    x ≤ u ∧ u < x + w ∧ y ≤ v ∧ v < y + h ∧ (u = x ∨ u = x + w - 1 ∨ v = y ∨ v = y + h - 1) := by
  rw [cell_box] at hs
  repeat' split at hs
  all_goals first | (simp at hs; done) | omega

/-- A box without extent is the exception: it writes cells outside. -/
theorem C48_empty_box_outside (x y : Int) : (cell (drawBox x y 0 0) (x - 1) (y - 1)).isSome := by
  rw [cell_box, if_pos ⟨by omega, by omega⟩]; rfl

/-! ## C67: texts -/

theorem drawString_append (x y : Int) (s t : List Char) :
    drawString x y (s ++ t) = drawString x y s ++ drawString (x + byteLen s) y t := by
  induction s generalizing x with
  | nil => simp [drawString, byteLen]
  | cons c s ih =>
    simp only [List.cons_append, drawString, ih, byteLen, List.map_cons, List.sum_cons, Int.natCast_add]
    rw [show x + ((c.utf8Size : Nat) : Int) + ((s.map Char.utf8Size).sum : Nat) =
      x + (((c.utf8Size : Nat) : Int) + ((s.map Char.utf8Size).sum : Nat)) by omega]

theorem drawString_row {x y : Int} {s : List Char} : ∀ w ∈ drawString x y s, w.y = y ∧ x ≤ w.x := by
  induction s generalizing x with
  | nil => simp [drawString]
  | cons c s ih =>
    intro w hw
    simp only [drawString, List.mem_cons] at hw
    rcases hw with rfl | hw
    · exact ⟨rfl, Int.le_refl _⟩
    · have := ih w hw
      exact ⟨this.1, by omega⟩

/-- Specification: an ASCII text. -/
def Ascii (s : List Char) : Prop := ∀ c ∈ s, c.toNat < 128

theorem ascii_size {c : Char} (h : c.toNat < 128) : c.utf8Size = 1 := by
  rw [Char.utf8Size_eq_one_iff, UInt32.le_iff_toNat_le]
  have : c.val.toNat < 128 := h
  show c.val.toNat ≤ 127
  omega

theorem byteLen_ascii {s : List Char} (h : Ascii s) : byteLen s = s.length := by
  induction s with
  | nil => simp [byteLen]
  | cons d s ih =>
    have := ih (fun e he => h e (List.mem_cons_of_mem _ he))
    simp only [byteLen, List.map_cons, List.sum_cons, List.length_cons] at this ⊢
    rw [this, ascii_size (h d (by simp))]; omega

theorem cell_string (x y : Int) (s : List Char) (hs : Ascii s) (u v : Int) : cell (drawString x y s) u v =
    if v = y ∧ x ≤ u then s[(u - x).toNat]? else none := by
  induction s generalizing x with
  | nil => simp [drawString, cell_nil]
  | cons c s ih =>
    have hc := ascii_size (hs c (by simp))
    rw [drawString, cell_cons, ih _ (fun d hd => hs d (List.mem_cons_of_mem _ hd)), hc]
    by_cases h : v = y ∧ x ≤ u
    · rw [if_pos h]
      by_cases h2 : u = x
      · subst h2
        rw [if_neg (by omega)]
        simp [h.1]
      · rw [if_pos ⟨h.1, by omega⟩, if_neg (by simp only; omega), Option.or_none]
        rw [show (u - x).toNat = (u - (x + ((1 : Nat) : Int))).toNat + 1 by omega, List.getElem?_cons_succ]
    · rw [if_neg h, if_neg (by omega), if_neg (by simp only; omega)]; rfl

/-- C67, where it holds: an ASCII text fills consecutive cells of its row, one character each, and writes no others. -/
theorem C67_text_partial (x y : Int) (s : List Char) (hs : Ascii s) :
    (∀ i, (h : i < s.length) → cell (drawString x y s) (x + i) y = some s[i]) ∧
    ∀ u v, (cell (drawString x y s) u v).isSome → v = y ∧ x ≤ u ∧ u < x + s.length := by
  constructor
  · intro i h
    rw [cell_string x y s hs, if_pos ⟨rfl, by omega⟩, show (x + (i : Int) - x).toNat = i by omega]
    exact List.getElem?_eq_getElem h
  · intro u v h
    rw [cell_string x y s hs] at h
    split at h
    · rename_i hc
      refine ⟨hc.1, hc.2, ?_⟩
      have : (u - x).toNat < s.length := by simpa using h
      omega
    · simp at h

/-- C67 is false in general: after a character that takes more than one byte in UTF-8 a cell is left out, whatever text
follows: the cell right after an accented letter is never written. -/
theorem C67_gap (x y : Int) (s t : List Char) (hs : Ascii s) (c : Char) (hc : 128 ≤ c.toNat) :
    cell (drawString x y (s ++ c :: t)) (x + s.length) y = some c ∧
    cell (drawString x y (s ++ c :: t)) (x + s.length + 1) y = none := by
  have hlen : ∀ s : List Char, Ascii s → byteLen s = s.length := by
    intro s
    induction s with
    | nil => simp [byteLen]
    | cons d s ih =>
      intro h
      have := ih (fun e he => h e (List.mem_cons_of_mem _ he))
      simp only [byteLen, List.map_cons, List.sum_cons, List.length_cons] at this ⊢
      rw [this, ascii_size (h d (by simp))]; omega
  have h2 : 2 ≤ c.utf8Size := by
    have h1 : c.utf8Size ≠ 1 := by
      intro h
      rw [Char.utf8Size_eq_one_iff, UInt32.le_iff_toNat_le] at h
      have : c.val.toNat ≤ 127 := h
      have : 128 ≤ c.val.toNat := hc
      omega
    have := Char.utf8Size_pos c
    omega
  rw [drawString_append, drawString, hlen s hs, cell_append, cell_append, cell_cons, cell_cons]
  have hrest : ∀ k : Int, k ≤ 1 → cell (drawString (x + (s.length : Int) + c.utf8Size) y t) (x + s.length + k) y = none := by
    intro k hk
    apply cell_none
    intro w hw ⟨h1, _⟩
    have := drawString_row w hw
    omega
  constructor
  · have := hrest 0 (by omega)
    rw [Int.add_zero] at this
    rw [this]; simp
  · rw [hrest 1 (by omega), if_neg (by simp only; omega)]
    rw [cell_string x y s hs, if_pos ⟨rfl, by omega⟩]
    simp; omega

/-- C67, exactly: character `i` of a text is shown as many cells to the right of the start as the characters before it take
bytes in UTF-8; no other cell is written. -/
theorem C67_exact (x y : Int) (s : List Char) (u v : Int) (c : Char) :
    cell (drawString x y s) u v = some c ↔ v = y ∧ ∃ i, s[i]? = some c ∧ u = x + byteLen (s.take i) := by
  induction s generalizing x with
  | nil => simp [drawString, cell_nil]
  | cons d s ih =>
    have hp := Char.utf8Size_pos d
    rw [drawString, cell_cons]
    have ih := ih (x + d.utf8Size)
    by_cases hd : x = u ∧ y = v
    · have hn : cell (drawString (x + d.utf8Size) y s) u v = none :=
        cell_none fun w hw ⟨h1, _⟩ => by have := drawString_row w hw; omega
      rw [hn]
      simp only [hd, and_self, if_true, Option.none_or, Option.some.injEq]
      constructor
      · rintro rfl
        exact ⟨trivial, 0, by simp, by simp [byteLen]⟩
      · rintro ⟨_, i, h1, h2⟩
        cases i with
        | zero => simpa using h1
        | succ i =>
          exfalso
          simp only [List.take_succ_cons, byteLen, List.map_cons, List.sum_cons, Int.natCast_add] at h2
          omega
    · rw [if_neg hd, Option.or_none, ih]
      constructor
      · rintro ⟨h1, i, h2, h3⟩
        refine ⟨h1, i + 1, by simpa using h2, ?_⟩
        simp only [List.take_succ_cons, byteLen, List.map_cons, List.sum_cons, Int.natCast_add] at h3 ⊢
        omega
      · rintro ⟨h1, i, h2, h3⟩
        cases i with
        | zero => exfalso; apply hd; simp [byteLen] at h3; omega
        | succ i =>
          refine ⟨h1, i, by simpa using h2, ?_⟩
          simp only [List.take_succ_cons, byteLen, List.map_cons, List.sum_cons, Int.natCast_add] at h3 ⊢
          omega

/-- C67: exactly the texts that are ASCII up to their last character are drawn without gaps. -/
theorem C67_no_gaps_iff (x y : Int) (s : List Char) :
    (∀ i, (h : i < s.length) → cell (drawString x y s) (x + i) y = some s[i]) ↔ Ascii s.dropLast := by
  constructor
  · intro h
    have key : ∀ k, (hk : k + 1 < s.length) → s[k].toNat < 128 := by
      intro k
      induction k using Nat.strongRecOn with
      | _ k ih =>
        intro hk
        refine Nat.lt_of_not_le fun hge => ?_
        have hs : Ascii (s.take k) := by
          intro c hc
          obtain ⟨j, hj, rfl⟩ := List.getElem_of_mem hc
          have hj' : j < k := by simp at hj; omega
          rw [List.getElem_take]
          exact ih j hj' (by omega)
        have e : s = s.take k ++ s[k] :: s.drop (k + 1) := by
          rw [List.getElem_cons_drop, List.take_append_drop]
        have hgap := (C67_gap x y (s.take k) (s.drop (k + 1)) hs s[k] hge).2
        rw [← e, List.length_take, Nat.min_eq_left (by omega)] at hgap
        have := h (k + 1) hk
        rw [show x + ((k + 1 : Nat) : Int) = x + k + 1 by omega, hgap] at this
        cases this
    intro c hc
    obtain ⟨j, hj, rfl⟩ := List.getElem_of_mem hc
    rw [List.getElem_dropLast]
    exact key j (by simp at hj; omega)
  · intro h i hi
    rw [C67_exact]
    refine ⟨rfl, i, List.getElem?_eq_getElem hi, ?_⟩
    have : Ascii (s.take i) := by
      intro c hc
      obtain ⟨j, hj, rfl⟩ := List.getElem_of_mem hc
      have hj' : j < i := by simp at hj; omega
      apply h
      rw [List.getElem_take, ← List.getElem_dropLast (xs := s) (h := by simp; omega)]
      exact List.getElem_mem _
    have hb := byteLen_ascii this
    rw [List.length_take, Nat.min_eq_left (by omega)] at hb
    omega

/-! ## C68: the whole window -/

theorem drawLines_row {y : Int} {ls : List (List Char)} : ∀ w ∈ drawLines y ls, w.y ≤ y ∧ y - ls.length < w.y := by
  induction ls generalizing y with
  | nil => simp [drawLines]
  | cons l ls ih =>
    intro w hw
    simp only [drawLines, List.mem_append] at hw
    rcases hw with hw | hw
    · have := drawString_row w hw; simp; omega
    · have := ih w hw; simp; omega

theorem playing_ascii (v : View) : Ascii (playingString v) := by
  unfold playingString Ascii
  split <;> decide

theorem lyrics_ascii : Ascii "Lyrics".toList := by unfold Ascii; decide

theorem cell_rows_none {ws : List Write} {u v : Int} (h : ∀ w ∈ ws, w.y ≠ v) : cell ws u v = none :=
  cell_none fun w hw ⟨_, h2⟩ => h w hw h2

theorem history_length (height : Nat) (lyrics : List Line) (time : Int) : (history height lyrics time).length = height :=
  (C45_view height lyrics time _ (nextLine_upcoming _ _)).1

theorem box_rows {x y w h : Int} (hh : 1 ≤ h) : ∀ z ∈ drawBox x y w h, y ≤ z.y ∧ z.y ≤ y + h - 1 := by
  intro z hz
  simp only [drawBox, List.mem_append, List.mem_flatMap, List.mem_range, List.mem_cons, List.not_mem_nil, or_false] at hz
  rcases hz with (⟨i, hi, rfl | rfl⟩ | ⟨i, hi, rfl | rfl⟩) | rfl | rfl | rfl | rfl <;> simp only <;> omega

theorem lyrics_rows (size : Nat) (w h : Int) (v : View) : ∀ z ∈ drawLyrics size w h v, z.y ≤ h - 6 := by
  intro z hz
  unfold drawLyrics at hz
  simp only at hz
  split at hz
  · simp only [List.mem_append] at hz
    rcases hz with (hz | hz) | hz
    · have := drawLines_row z hz; omega
    · have := box_rows (by omega) z hz; omega
    · have := drawString_row z hz; omega
  · simp at hz

/-- C68: whatever the texts, the progress and the lyrics are, the frame around the playback information is intact, except
for the word Playing or Paused in its top line. -/
theorem C68_playback_frame (size : Nat) (w h : Int) (hw : 2 ≤ w) (v : View) (x y : Int) (c : Char)
    (hf : frame 0 (h - 5) w 5 x y = some c) (hy : h - 5 ≤ y) :
    cell (redraw size w h v) x y = some c ∨
      (y = h - 5 ∧ 2 ≤ x ∧ ∃ t, (t = "Playing".toList ∨ t = "Paused".toList) ∧ x < 2 + t.length ∧
        cell (redraw size w h v) x y = t[(x - 2).toNat]?) := by
  unfold redraw
  rw [cell_append, cell_rows_none (fun z hz => by have := lyrics_rows size w h v z hz; omega), Option.none_or]
  unfold drawPlaybackInfo
  rw [cell_append, cell_append _ (drawBox 0 (h - 5) w 5), C48_box 0 (h - 5) w 5 hw (by omega), hf,
    cell_string _ _ _ (playing_ascii v)]
  by_cases hc : y = h - 5 ∧ 2 ≤ x ∧ x < 2 + (playingString v).length
  · right
    refine ⟨hc.1, hc.2.1, playingString v, ?_, hc.2.2, ?_⟩
    · unfold playingString; split
      · exact .inl rfl
      · exact .inr rfl
    · rw [if_pos ⟨hc.1, hc.2.1⟩]
      have : (x - 2).toNat < (playingString v).length := by omega
      rw [List.getElem?_eq_getElem this]; rfl
  · left
    split
    · rw [List.getElem?_eq_none (by omega)]; rfl
    · rfl

/-- C68: the same for the frame around the lyrics, if there is room for lyrics. -/
theorem C68_lyrics_frame (size : Nat) (w h : Int) (hw : 2 ≤ w) (v : View) (n : Int) (hn : n = min (size : Int) (h - 7)) (h0 : 0 < n)
    (x y : Int) (c : Char) (hf : frame 0 (h - 7 - n) w (n + 2) x y = some c) :
    cell (redraw size w h v) x y = some c ∨
      (y = h - 7 - n ∧ 2 ≤ x ∧ x < 2 + ("Lyrics".toList).length ∧
        cell (redraw size w h v) x y = ("Lyrics".toList)[(x - 2).toNat]?) := by
  have hl : lyricsHeight size h = n := by unfold lyricsHeight; split <;> omega
  unfold redraw
  rw [cell_append]
  unfold drawLyrics
  simp only [hl, h0, if_true]
  rw [cell_append, cell_append, C48_box 0 (h - 7 - n) w (n + 2) hw (by omega), hf, cell_string _ _ _ lyrics_ascii]
  by_cases hc : y = h - 7 - n ∧ 2 ≤ x ∧ x < 2 + ("Lyrics".toList).length
  · right
    refine ⟨hc.1, hc.2.1, hc.2.2, ?_⟩
    rw [if_pos ⟨hc.1, hc.2.1⟩]
    have : (x - 2).toNat < ("Lyrics".toList).length := by omega
    rw [List.getElem?_eq_getElem this]; rfl
  · left
    split
    · rw [List.getElem?_eq_none (by omega)]; rfl
    · rfl

/-- C68: the title (or the file name) is shown from the left, up to the frame: its character `i` is as many cells to the
right as the characters before it have bytes (one each, if they are ASCII). -/
theorem C68_title (size : Nat) (w h : Int) (hw : 2 ≤ w) (v : View) (name : List Char)
    (hname : (v.title ≠ [] ∧ name = v.title) ∨ (v.title = [] ∧ name = v.filename)) (k : Nat)
    (hi : k < name.length) (i : Nat) (hik : i = byteLen (name.take k)) (hfit : (i : Int) < w - 2) :
    cell (redraw size w h v) (1 + i) (h - 4) = some name[k] := by
  have hn : songLineName v = name := by
    unfold songLineName
    rcases hname with ⟨h1, h2⟩ | ⟨h1, h2⟩
    · rw [if_pos h1, h2]
    · rw [if_neg (by simp [h1]), h2]
  unfold redraw
  rw [cell_append, cell_rows_none (fun z hz => by have := lyrics_rows size w h v z hz; omega), Option.none_or]
  unfold drawPlaybackInfo
  have hfr : frame 0 (h - 5) w 5 (1 + i) (h - 4) = none := by
    unfold frame
    repeat' split
    all_goals first | rfl | omega
  have r1 : cell (drawString 2 (h - 5) (playingString v)) (1 + i) (h - 4) = none :=
    cell_rows_none (fun z hz => by have := drawString_row z hz; omega)
  have r2 : cell (drawProgress 1 (h - 2) (w - 2) (v.progress (w - 2))) (1 + i) (h - 4) = none := by
    rw [cell_progress, if_neg (by omega)]
  have r3 : cell (drawString 1 (h - 3) (songLineArtistAlbum v)) (1 + i) (h - 4) = none :=
    cell_rows_none (fun z hz => by have := drawString_row z hz; omega)
  have r4 : cell (drawString (w - byteLen (timeLine v) - 1) (h - 3) (timeLine v)) (1 + i) (h - 4) = none :=
    cell_rows_none (fun z hz => by have := drawString_row z hz; omega)
  rw [cell_append, r1, cell_append, C48_box 0 (h - 5) w 5 hw (by omega), hfr, cell_append, r2, cell_append, r3, cell_append, r4,
    cell_append, hn, (C67_exact 1 (h - 4) name (1 + i) (h - 4) name[k]).2 ⟨rfl, k, List.getElem?_eq_getElem hi, by omega⟩]
  rfl

/-- C68: a row of the lyrics view is shown from the left, up to the frame, above one another, the newest lowest. -/
theorem C68_lyrics (size : Nat) (w h : Int) (hw : 2 ≤ w) (v : View) (n : Nat) (hn : (n : Int) = min (size : Int) (h - 7))
    (r : Nat) (text : List Char) (ht : (history n v.lyrics v.timeInSong)[r]? = some text) (k : Nat)
    (hi : k < text.length) (i : Nat) (hik : i = byteLen (text.take k)) (hfit : (i : Int) < w - 2) :
    cell (redraw size w h v) (1 + i) (h - 7 - r) = some text[k] := by
  have hlen := history_length n v.lyrics v.timeInSong
  have hr : r < n := by
    rw [← hlen]
    exact (List.getElem?_eq_some_iff.1 ht).1
  have hl : lyricsHeight size h = n := by unfold lyricsHeight; split <;> omega
  have lines : ∀ (ls : List (List Char)) (y : Int) (r : Nat), ls[r]? = some text →
      cell (drawLines y ls) (1 + i) (y - r) = some text[k] := by
    intro ls
    induction ls with
    | nil => intro y r h; simp at h
    | cons l ls ih =>
      intro y r h
      rw [drawLines, cell_append]
      cases r with
      | zero =>
        simp at h
        subst h
        rw [show y - ((0 : Nat) : Int) = y by omega, (C67_exact 1 y l (1 + i) y l[k]).2 ⟨rfl, k, List.getElem?_eq_getElem hi, by omega⟩,
          cell_rows_none (fun z hz => by have := drawLines_row z hz; omega)]
        rfl
      | succ r =>
        have := ih (y - 1) r (by simpa using h)
        rw [show y - ((r + 1 : Nat) : Int) = y - 1 - r by omega, this]
        rfl
  unfold redraw
  rw [cell_append]
  unfold drawLyrics
  simp only [hl, show (0 : Int) < n by omega, if_true, Int.toNat_natCast]
  have hfr : frame 0 (h - 7 - n) w (n + 2) (1 + i) (h - 7 - r) = none := by
    unfold frame
    repeat' split
    all_goals first | rfl | omega
  have r1 : cell (drawString 2 (h - 7 - n) "Lyrics".toList) (1 + i) (h - 7 - r) = none :=
    cell_rows_none (fun z hz => by have := drawString_row z hz; omega)
  rw [cell_append, r1, cell_append, C48_box 0 (h - 7 - n) w (n + 2) hw (by omega), hfr, lines _ _ r ht]
  rfl

/-- C68: the progress bar is shown in full. -/
theorem C68_bar (size : Nat) (w h : Int) (hw : 2 ≤ w) (v : View) (x : Int) (h1 : 1 ≤ x) (h2 : x < w - 1) :
    cell (redraw size w h v) x (h - 2) = cell (drawProgress 1 (h - 2) (w - 2) (v.progress (w - 2))) x (h - 2) := by
  unfold redraw
  rw [cell_append, cell_rows_none (fun z hz => by have := lyrics_rows size w h v z hz; omega), Option.none_or]
  unfold drawPlaybackInfo
  have hfr : frame 0 (h - 5) w 5 x (h - 2) = none := by
    unfold frame
    repeat' split
    all_goals first | rfl | omega
  have r1 : cell (drawString 2 (h - 5) (playingString v)) x (h - 2) = none :=
    cell_rows_none (fun z hz => by have := drawString_row z hz; omega)
  obtain ⟨c, hc⟩ := Option.isSome_iff_exists.1 (((C48_progress 1 (h - 2) (w - 2) (v.progress (w - 2))).2.1 x (h - 2)).2
    ⟨rfl, by omega, by omega⟩)
  rw [cell_append, r1, cell_append, C48_box 0 (h - 5) w 5 hw (by omega), hfr, cell_append, hc]
  rfl

theorem drawString_end {x y : Int} {s : List Char} : ∀ w ∈ drawString x y s, w.x < x + byteLen s := by
  induction s generalizing x with
  | nil => simp [drawString]
  | cons c s ih =>
    intro w hw
    have hp := Char.utf8Size_pos c
    simp only [drawString, List.mem_cons] at hw
    simp only [byteLen, List.map_cons, List.sum_cons, Int.natCast_add]
    rcases hw with rfl | hw
    · simp only; omega
    · have := ih w hw
      simp only [byteLen] at this
      omega

theorem value_digits_ascii {s : List Char} (h : ∀ c ∈ s, 48 ≤ c.toNat ∧ c.toNat ≤ 57) : Ascii s :=
  fun c hc => by have := h c hc; omega

theorem ascii_append {s t : List Char} (hs : Ascii s) (ht : Ascii t) : Ascii (s ++ t) := by
  intro c hc
  rcases List.mem_append.1 hc with h | h
  · exact hs c h
  · exact ht c h

theorem ascii_cons {c : Char} {t : List Char} (hc : c.toNat < 128) (ht : Ascii t) : Ascii (c :: t) := by
  intro d hd
  rcases List.mem_cons.1 hd with rfl | h
  · exact hc
  · exact ht d h

theorem decI_ascii (x : Int) : Ascii (decI x) := by
  unfold decI
  split
  · exact ascii_cons (by decide) (value_digits_ascii (Fmt.dec_digits _))
  · exact value_digits_ascii (Fmt.dec_digits _)

theorem dec02I_ascii (x : Int) : Ascii (dec02I x) := by
  unfold dec02I
  split
  · exact ascii_cons (by decide) (value_digits_ascii (Fmt.dec0_digits _ _))
  · exact value_digits_ascii (Fmt.dec0_digits _ _)

theorem fmtDuration_ascii (d : Int) : Ascii (fmtDuration d) := by
  have hc : Ascii [':'] := ascii_cons (by decide) (by simp [Ascii])
  unfold fmtDuration
  split
  · exact ascii_append (ascii_append (decI_ascii _) hc) (dec02I_ascii _)
  · exact ascii_append (ascii_append (ascii_append (ascii_append (decI_ascii _) hc) (dec02I_ascii _)) hc) (dec02I_ascii _)

/-- C68: the time in the song and its length are shown at the right, next to the frame, unless the artist and album take
the space (their UTF-8 bytes count). -/
theorem C68_time (size : Nat) (w h : Int) (hw : 2 ≤ w) (v : View) (t : List Char)
    (ht : t = fmtDuration v.timeInSong ++ '/' :: fmtDuration v.songLength) (line : List Char)
    (hline : line = if v.artist = [] then [] else if v.album = [] then v.artist else v.artist ++ " - ".toList ++ v.album)
    (hroom : (byteLen line : Int) + t.length ≤ w - 2) (i : Nat) (hi : i < t.length) :
    cell (redraw size w h v) (w - 1 - t.length + i) (h - 3) = some t[i] := by
  have e1 : timeLine v = t := by rw [ht]; simp [timeLine]
  have e2 : songLineArtistAlbum v = line := by
    rw [hline]
    unfold songLineArtistAlbum
    by_cases h1 : v.artist = []
    · simp [h1]
    · by_cases h2 : v.album = [] <;> simp [h1, h2]
  have hta : Ascii t := by
    rw [ht]
    exact ascii_append (fmtDuration_ascii _) (ascii_cons (by decide) (fmtDuration_ascii _))
  unfold redraw
  rw [cell_append, cell_rows_none (fun z hz => by have := lyrics_rows size w h v z hz; omega), Option.none_or]
  unfold drawPlaybackInfo
  rw [e1, e2, byteLen_ascii hta]
  have hfr : frame 0 (h - 5) w 5 (w - 1 - t.length + i) (h - 3) = none := by
    unfold frame
    repeat' split
    all_goals first | rfl | omega
  have r1 : cell (drawString 2 (h - 5) (playingString v)) (w - 1 - t.length + i) (h - 3) = none :=
    cell_rows_none (fun z hz => by have := drawString_row z hz; omega)
  have r2 : cell (drawProgress 1 (h - 2) (w - 2) (v.progress (w - 2))) (w - 1 - t.length + i) (h - 3) = none := by
    rw [cell_progress, if_neg (by omega)]
  have r3 : cell (drawString 1 (h - 3) line) (w - 1 - t.length + i) (h - 3) = none :=
    cell_none (fun z hz ⟨hx, _⟩ => by have := drawString_end z hz; omega)
  rw [cell_append, r1, cell_append, C48_box 0 (h - 5) w 5 hw (by omega), hfr, cell_append, r2, cell_append, r3, cell_append,
    show w - (t.length : Int) - 1 = w - 1 - t.length by omega, (C67_text_partial (w - 1 - t.length) (h - 3) t hta).1 i hi]
  rfl

/-- C68: whether playback is on is shown on the frame of the playback information. -/
theorem C68_status (size : Nat) (w h : Int) (v : View) (i : Nat) (text : List Char)
    (ht : text = if v.playing = true then "Playing".toList else "Paused".toList) (hi : i < text.length) :
    cell (redraw size w h v) (2 + i) (h - 5) = some text[i] := by
  have hp : playingString v = text := by rw [ht]; rfl
  have ha : Ascii text := by rw [ht]; split <;> (unfold Ascii; decide)
  unfold redraw
  rw [cell_append, cell_rows_none (fun z hz => by have := lyrics_rows size w h v z hz; omega), Option.none_or]
  unfold drawPlaybackInfo
  rw [cell_append, hp, (C67_text_partial 2 (h - 5) text ha).1 i hi]
  rfl

section examples
/-- A view with lyrics and a title longer than the window. -/
def demoView : View :=
  ⟨List.replicate 100 'x', ['A'], [], [], demo, 1950000000, 60000000000, true, "Volume: 010.00%".toList, fun l => l * (1 / 2)⟩
example : frame 0 15 40 5 39 16 = some '║' := by decide
example : cell (redraw 5 40 20 demoView) 39 16 = some '║' := by
  rcases C68_playback_frame 5 40 20 (by omega) demoView 39 16 '║' (by decide) (by omega) with h | ⟨h, _⟩
  · exact h
  · omega
example : cell (redraw 5 40 20 demoView) 0 10 = some '║' := by
  rcases C68_lyrics_frame 5 40 20 (by omega) demoView 5 (by decide) (by omega) 0 10 '║' (by decide) with h | ⟨h, _⟩
  · exact h
  · omega
/-- A title with accents: the cell after one is not written by the title. -/
example : cell (drawString 1 0 ['é', 'a']) 1 0 = some 'é' ∧ cell (drawString 1 0 ['é', 'a']) 2 0 = none ∧
    cell (drawString 1 0 ['é', 'a']) 3 0 = some 'a' := by
  refine ⟨(C67_exact 1 0 _ 1 0 'é').2 ⟨rfl, 0, rfl, rfl⟩, (C67_gap 1 0 [] ['a'] (by simp [Ascii]) 'é' (by decide)).2,
    (C67_exact 1 0 _ 3 0 'a').2 ⟨rfl, 1, rfl, rfl⟩⟩
/-- The title of `demoView` is shown up to the frame and no further. -/
example : cell (redraw 5 40 20 demoView) 38 16 = some 'x' :=
  C68_title 5 40 20 (by omega) demoView _ (.inl ⟨by simp [demoView], rfl⟩) 37 (by simp [demoView]) 37 (by decide) (by decide)
end examples

end MS.Display
