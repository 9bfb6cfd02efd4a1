import Verif.Model.Files
/-!
# Property C52: song names and files
-/
set_option linter.unusedSimpArgs false
namespace MS.Files

/-- Specification: names that entries of a directory have. -/
def Name (n : Path) : Prop := n ≠ [] ∧ '/' ∉ n ∧ n ≠ ['.'] ∧ n ≠ ['.', '.']

/-- Specification: the path of `xs` below `d`. -/
def below (d : Path) (xs : List Path) : Path :=
  if xs = [] then d else if d = ['/'] then '/' :: joinSlash xs else d ++ '/' :: joinSlash xs

/-! ## Lemmas about clean paths -/

theorem split_ne (p : Path) : split p ≠ [] := by
  cases p with
  | nil => simp [split]
  | cons c p =>
    rw [split]
    split
    · simp
    · split <;> simp

theorem split_append (a b : Path) : split (a ++ '/' :: b) = split a ++ split b := by
  induction a with
  | nil => simp [split]
  | cons c a ih =>
    by_cases h : c = '/'
    · simp [split, h, ih]
    · simp only [List.cons_append, split, h, if_false, ih]
      cases hs : split a with
      | nil => exact absurd hs (split_ne a)
      | cons x xs => simp

theorem split_name {n : Path} (h : '/' ∉ n) : split n = [n] := by
  induction n with
  | nil => rfl
  | cons c n ih =>
    simp at h
    rw [split, if_neg (fun e => h.1 e.symm), ih h.2]

theorem split_join {xs : List Path} (h : ∀ n ∈ xs, '/' ∉ n) (hne : xs ≠ []) : split (joinSlash xs) = xs := by
  induction xs with
  | nil => exact absurd rfl hne
  | cons x xs ih =>
    cases xs with
    | nil => simp [joinSlash, List.intercalate, List.intersperse, split_name (h x (by simp))]
    | cons y ys =>
      have e : joinSlash (x :: y :: ys) = x ++ '/' :: joinSlash (y :: ys) := by
        simp [joinSlash, List.intercalate, List.intersperse]
      rw [e, split_append, split_name (h x (by simp)), ih (fun n hn => h n (List.mem_cons_of_mem _ hn)) (by simp)]
      rfl

theorem joinSlash_append {xs ys : List Path} (hx : xs ≠ []) (hy : ys ≠ []) :
    joinSlash (xs ++ ys) = joinSlash xs ++ '/' :: joinSlash ys := by
  induction xs with
  | nil => exact absurd rfl hx
  | cons x xs ih =>
    cases xs with
    | nil =>
      cases ys with
      | nil => exact absurd rfl hy
      | cons y ys => simp [joinSlash, List.intercalate, List.intersperse]
    | cons z zs =>
      have := ih (by simp)
      have e : ∀ (a b : Path) l, joinSlash (a :: b :: l) = a ++ '/' :: joinSlash (b :: l) := by
        intro a b l; simp [joinSlash, List.intercalate, List.intersperse]
      rw [List.cons_append, List.cons_append, e, ← List.cons_append, this, e]
      simp

/-- The elements of a path that count, if there is no `..`. -/
def good (s : Path) : List Path := (split s).filter fun c => c ≠ [] && c ≠ ['.']

/-- Specification: no element is `..`. -/
def NoUp (s : Path) : Prop := ['.', '.'] ∉ split s

theorem foldl_step_good (r : Bool) (cs : List Path) (h : ['.', '.'] ∉ cs) (st : List Path) :
    cs.foldl (step r) st = st ++ cs.filter fun c => c ≠ [] && c ≠ ['.'] := by
  induction cs generalizing st with
  | nil => simp
  | cons c cs ih =>
    simp at h
    rw [List.foldl_cons, ih (by simpa using h.2)]
    by_cases hc : c = [] ∨ c = ['.']
    · rw [step, if_pos hc, List.filter_cons, if_neg]
      rcases hc with rfl | rfl <;> simp
    · rw [step, if_neg hc, if_neg (fun e => h.1 e.symm), List.filter_cons, if_pos]
      · simp
      · simpa [not_or] using hc

theorem good_names (s : Path) (h : NoUp s) : ∀ n ∈ good s, Name n := by
  intro n hn
  rw [good, List.mem_filter] at hn
  have hs : ∀ p : Path, ∀ m ∈ split p, '/' ∉ m := by
    intro p
    induction p with
    | nil => simp [split]
    | cons c p ih =>
      intro m hm
      rw [split] at hm
      split at hm
      · rcases List.mem_cons.1 hm with rfl | hm
        · simp
        · exact ih m hm
      · rename_i hc
        split at hm
        · simp at hm; subst hm; simpa using fun e => hc e.symm
        · rename_i x xs e
          rcases List.mem_cons.1 hm with rfl | hm
          · have := ih x (by rw [e]; simp)
            simp only [List.mem_cons, not_or]
            exact ⟨fun e => hc e.symm, this⟩
          · exact ih m (by rw [e]; simp [hm])
  have h2 := hn.2
  simp only [Bool.and_eq_true, decide_eq_true_eq, ne_eq] at h2
  exact ⟨h2.1, hs s n hn.1, h2.2, fun e => h (e ▸ hn.1)⟩

theorem good_join {xs : List Path} (h : ∀ n ∈ xs, Name n) : good (joinSlash xs) = xs := by
  cases xs with
  | nil => simp [good, joinSlash, List.intercalate, List.intersperse, split]
  | cons x xs =>
    rw [good, split_join (fun n hn => (h n hn).2.1) (by simp), List.filter_eq_self]
    intro n hn
    have := h n hn
    simp [this.1, this.2.2.1]

theorem noUp_join {xs : List Path} (h : ∀ n ∈ xs, Name n) : NoUp (joinSlash xs) := by
  cases xs with
  | nil => simp [NoUp, joinSlash, List.intercalate, List.intersperse, split]
  | cons x xs =>
    rw [NoUp, split_join (fun n hn => (h n hn).2.1) (by simp)]
    intro hm
    exact (h _ hm).2.2.2 rfl

/-- Specification: a directory that is spelled in the shortest way and is not the working directory. -/
def CleanDir (d : Path) : Prop := clean d = d ∧ d ≠ ['.']

theorem cleanDir_ne {d : Path} (h : CleanDir d) : d ≠ [] := by
  intro e
  subst e
  have := h.1
  simp [clean, rooted, stack, split, step] at this

theorem cleanDir_form {d : Path} (h : CleanDir d) :
    (rooted d = true ∧ d = '/' :: joinSlash (stack d)) ∨ (rooted d = false ∧ stack d ≠ [] ∧ d = joinSlash (stack d)) := by
  obtain ⟨h1, h2⟩ := h
  unfold clean at h1
  cases hr : rooted d with
  | true => rw [hr] at h1; simp at h1; exact .inl ⟨rfl, h1.symm⟩
  | false =>
    rw [hr] at h1
    simp only [Bool.false_eq_true, if_false] at h1
    split at h1
    · exact absurd h1.symm h2
    · rename_i hs; exact .inr ⟨rfl, hs, h1.symm⟩

theorem rooted_append {d : Path} (hd : d ≠ []) (s : Path) : rooted (d ++ s) = rooted d := by
  cases d with
  | nil => exact absurd rfl hd
  | cons c d => rfl

theorem stack_append {d : Path} (hd : d ≠ []) (s : Path) (hs : NoUp s) : stack (d ++ '/' :: s) = stack d ++ good s := by
  unfold stack
  rw [rooted_append hd, split_append, List.foldl_append, foldl_step_good _ _ hs]
  rfl

theorem stack_root : stack ['/'] = [] := by simp [stack, split, step]

theorem root_iff {d : Path} (h : CleanDir d) : d = ['/'] ↔ (rooted d = true ∧ stack d = []) := by
  constructor
  · rintro rfl; exact ⟨rfl, stack_root⟩
  · rintro ⟨h1, h2⟩
    rcases cleanDir_form h with ⟨_, e⟩ | ⟨e, _⟩
    · rw [h2] at e; exact e
    · rw [h1] at e; simp at e

theorem clean_below {d : Path} (h : CleanDir d) (s : Path) (hs : NoUp s) : clean (d ++ '/' :: s) = below d (good s) := by
  have hne := cleanDir_ne h
  unfold clean
  rw [rooted_append hne, stack_append hne s hs]
  unfold below
  by_cases hg : good s = []
  · rw [if_pos hg, hg, List.append_nil]
    exact h.1
  · rw [if_neg hg]
    rcases cleanDir_form h with ⟨hr, e⟩ | ⟨hr, hst, e⟩
    · rw [hr, if_pos rfl]
      by_cases hroot : d = ['/']
      · rw [if_pos hroot, ((root_iff h).1 hroot).2, List.nil_append]
      · rw [if_neg hroot]
        have hst : stack d ≠ [] := fun hx => hroot ((root_iff h).2 ⟨hr, hx⟩)
        rw [joinSlash_append hst hg]
        conv => rhs; rw [e]
        rfl
    · have hroot : d ≠ ['/'] := by rintro rfl; simp [rooted] at hr
      rw [hr, if_neg (by simp), if_neg (by simp [hst]), if_neg hroot, joinSlash_append hst hg]
      conv => rhs; rw [e]

theorem join_below {d : Path} (h : CleanDir d) (s : Path) (hs : NoUp s) : join d s = below d (good s) := by
  rw [join, if_pos (cleanDir_ne h), clean_below h s hs]

theorem split_below_append {d : Path} {xs : List Path} (hx : ∀ n ∈ xs, Name n) (s : Path) :
    (split (below d xs ++ '/' :: s)).foldl (step (rooted d)) [] = (split (d ++ '/' :: (joinSlash xs ++ '/' :: s))).foldl (step (rooted d)) [] := by
  unfold below
  by_cases h1 : xs = []
  · subst h1
    have : joinSlash [] = [] := rfl
    rw [if_pos rfl, this, List.nil_append, split_append, split_append, show ('/' :: s : Path) = [] ++ '/' :: s from rfl, split_append,
      List.foldl_append, List.foldl_append, List.foldl_append]
    simp [split, step]
  · rw [if_neg h1]
    by_cases h2 : d = ['/']
    · rw [if_pos h2, h2]
      rw [show ('/' :: joinSlash xs ++ '/' :: s : Path) = [] ++ '/' :: (joinSlash xs ++ '/' :: s) from rfl, split_append,
        split_append ['/']]
      simp [split, step, List.foldl_append]
    · rw [if_neg h2]
      simp

theorem rooted_below {d : Path} (hd : d ≠ []) (xs : List Path) : rooted (below d xs) = rooted d := by
  unfold below
  split
  · rfl
  · split
    · rename_i h; rw [h]; rfl
    · exact rooted_append hd _

theorem below_ne {d : Path} (hd : d ≠ []) (xs : List Path) : below d xs ≠ [] := by
  unfold below
  split
  · exact hd
  · split <;> simp

/-- A further step down. -/
theorem join_below_below {d : Path} (h : CleanDir d) {xs : List Path} (hx : ∀ n ∈ xs, Name n) {n : Path} (hn : Name n) :
    join (below d xs) n = below d (xs ++ [n]) := by
  have hne := cleanDir_ne h
  have e : clean (below d xs ++ '/' :: n) = clean (d ++ '/' :: (joinSlash xs ++ '/' :: n)) := by
    have hst : stack (below d xs ++ '/' :: n) = stack (d ++ '/' :: (joinSlash xs ++ '/' :: n)) := by
      unfold stack
      rw [rooted_append (below_ne hne xs), rooted_below hne, rooted_append hne, split_below_append hx]
    unfold clean
    rw [hst, rooted_append (below_ne hne xs), rooted_below hne, rooted_append hne]
  have hgood : good (joinSlash xs ++ '/' :: n) = xs ++ [n] := by
    have := good_join hx
    unfold good at this ⊢
    rw [split_append, List.filter_append, this, split_name hn.2.1]
    simp [hn.1, hn.2.2.1]
  have hno : NoUp (joinSlash xs ++ '/' :: n) := by
    unfold NoUp
    rw [split_append, split_name hn.2.1, List.mem_append, not_or]
    exact ⟨noUp_join hx, by simpa using fun e => hn.2.2.2 e.symm⟩
  rw [join, if_pos (below_ne hne xs), e, clean_below h _ hno, hgood]

theorem foldl_join {d : Path} (h : CleanDir d) (ys : List Path) : ∀ {xs : List Path}, (∀ n ∈ xs, Name n) → (∀ n ∈ ys, Name n) →
    ys.foldl join (below d xs) = below d (xs ++ ys) := by
  induction ys with
  | nil => intro xs _ _; simp
  | cons y ys ih =>
    intro xs hx hy
    rw [List.foldl_cons, join_below_below h hx (hy y (by simp)), ih, List.append_assoc]
    · rfl
    · intro n hn
      rcases List.mem_append.1 hn with hn | hn
      · exact hx n hn
      · simp at hn; subst hn; exact hy _ (by simp)
    · intro n hn; exact hy n (List.mem_cons_of_mem _ hn)

theorem joinSlash_ne {xs : List Path} (hx : ∀ n ∈ xs, Name n) (hne : xs ≠ []) : joinSlash xs ≠ [] := by
  intro h
  have := good_join hx
  rw [h] at this
  simp [good, split] at this
  exact hne this

theorem prefix_strip (a b : Path) : (a.isPrefixOf (a ++ b)) = true ∧ (a ++ b).drop a.length = b := by
  constructor
  · rw [List.isPrefixOf_iff_prefix]; exact List.prefix_append a b
  · simp

/-- The name of a file below the music directory is its relative path. -/
theorem remove_below {d : Path} (_h : CleanDir d) {xs : List Path} (hx : ∀ n ∈ xs, Name n)
    (hb : d = ['/'] → ∀ n, xs.head? = some n → n.head? ≠ some '\\') : removeDirPrefix (below d xs) d = joinSlash xs := by
  by_cases h1 : xs = []
  · subst h1
    have e := prefix_strip d []
    rw [List.append_nil] at e
    simp only [removeDirPrefix, below, if_true, e.1, e.2]
    decide
  · by_cases h2 : d = ['/']
    · have hf : (joinSlash xs).head? ≠ some '/' ∧ (joinSlash xs).head? ≠ some '\\' := by
        cases xs with
        | nil => exact absurd rfl h1
        | cons x xs =>
          have hxn := hx x (by simp)
          cases x with
          | nil => exact absurd rfl hxn.1
          | cons c x =>
            have e : (joinSlash ((c :: x) :: xs)).head? = some c := by
              cases xs <;> simp [joinSlash, List.intercalate, List.intersperse]
            rw [e]
            have := hb h2 (c :: x) rfl
            simp at this
            have h3 := hxn.2.1
            simp at h3
            refine ⟨?_, ?_⟩
            · simpa using fun e => h3.1 e.symm
            · simpa using this
      have e : below d xs = d ++ joinSlash xs := by simp [below, h1, h2]
      have hp := prefix_strip d (joinSlash xs)
      simp only [removeDirPrefix, e, hp.1, hp.2, if_true]
      rw [if_neg]
      cases hj : joinSlash xs with
      | nil => simp
      | cons c p =>
        rw [hj] at hf
        simp only [List.head?_cons, ne_eq, Option.some.injEq] at hf
        simp only [List.isPrefixOf, Bool.and_true, Bool.or_eq_true, beq_iff_eq]
        rintro (e | e)
        · exact hf.1 e.symm
        · exact hf.2 e.symm
    · have e : below d xs = d ++ '/' :: joinSlash xs := by simp [below, h1, h2]
      have hp := prefix_strip d ('/' :: joinSlash xs)
      simp only [removeDirPrefix, e, hp.1, hp.2, if_true]
      simp

/-! ## C52 -/

/-- Specification: the entries found have proper names. -/
def Proper (fs : FS) : Prop := ∀ p f, fs p = some f → ∀ e ∈ f.below, e.1 ≠ [] ∧ ∀ n ∈ e.1, Name n

/-- Specification: not the root directory with names that start with a backslash. -/
def NoBackslashes (d : Path) (fs : FS) (root : Path) : Prop :=
  d = ['/'] → ∀ f, fs root = some f → ∀ e ∈ f.below, ∀ n ∈ e.1, n.head? ≠ some '\\'

theorem visited_below {d : Path} (h : CleanDir d) (fs : FS) (hp : Proper fs) (xs : List Path) (hx : ∀ n ∈ xs, Name n) :
    visited fs (below d xs) = match fs (below d xs) with
      | none => []
      | some f => (below d xs, f.isDir) :: f.below.map fun e => (below d (xs ++ e.1), e.2) := by
  unfold visited
  cases hf : fs (below d xs) with
  | none => rfl
  | some f =>
    simp only
    congr 1
    apply List.map_congr_left
    intro e he
    rw [foldl_join h e.1 hx (hp _ f hf e he).2]

/-- Specification: the files at and below the directory that `xs` leads to from `d`. -/
def filesBelow (fs : FS) (d : Path) (xs : List Path) : List Path :=
  match fs (below d xs) with
  | none => []
  | some f => ((([], f.isDir) :: f.below).filter fun e => e.2 = false).map fun e => below d (xs ++ e.1)

theorem filesBelow_visited {d : Path} (h : CleanDir d) (fs : FS) (hp : Proper fs) (xs : List Path) (hx : ∀ n ∈ xs, Name n) :
    ((visited fs (below d xs)).filter fun v => v.2 = false).map Prod.fst = filesBelow fs d xs := by
  rw [visited_below h fs hp xs hx, filesBelow]
  cases fs (below d xs) with
  | none => rfl
  | some f =>
    simp only
    have e : (below d xs, f.isDir) :: f.below.map (fun e => (below d (xs ++ e.1), e.2)) =
        (([], f.isDir) :: f.below).map (fun e => (below d (xs ++ e.1), e.2)) := by simp
    rw [e, List.filter_map, List.map_map]
    rfl

/-- C52: with a music directory that is spelled in the shortest way (and is not the working directory), and a
subdirectory without `..`: the names listed are, in order, the relative paths of the files found, so that opening a listed
name opens the listed file. -/
theorem C52_list_partial (fs : FS) (hp : Proper fs) (d sub : Path) (h : CleanDir d) (hs : NoUp sub) (xs : List Path)
    (hxs : xs = good sub) (hb : d = ['/'] → ∀ n ∈ xs, n.head? ≠ some '\\') (hb' : NoBackslashes d fs (below d xs))
    (hroot : ∀ f, fs d = some f → f.isDir = true) :
    ∃ rels : List (List Path), listAllFiles fs d sub = rels.map joinSlash ∧
      (listAllFiles fs d sub).map (opened d) = filesBelow fs d xs ∧
      ∀ r ∈ rels, r ≠ [] ∧ (∀ n ∈ r, Name n) ∧ opened d (joinSlash r) = below d r := by
  have hx : ∀ n ∈ xs, Name n := by rw [hxs]; exact good_names sub hs
  rw [← filesBelow_visited h fs hp xs hx]
  have hdir : (if sub ≠ [] then join d sub else d) = below d xs := by
    by_cases h0 : sub = []
    · subst h0
      have : xs = [] := by rw [hxs]; simp [good, split]
      simp [this, below]
    · rw [if_pos h0, join_below h sub hs, hxs]
  have open_rel : ∀ r : List Path, (∀ n ∈ r, Name n) → opened d (joinSlash r) = below d r := by
    intro r hr
    rw [opened, join_below h _ (noUp_join hr), good_join hr]
  unfold listAllFiles
  simp only [hdir]
  unfold walker
  rw [visited_below h fs hp xs hx]
  cases hf : fs (below d xs) with
  | none => exact ⟨[], by simp, by simp, by simp⟩
  | some f =>
    simp only
    have hpf := hp _ f hf
    have names : ∀ e ∈ f.below, ∀ n ∈ xs ++ e.1, Name n := by
      intro e he n hn
      rcases List.mem_append.1 hn with hn | hn
      · exact hx n hn
      · exact (hpf e he).2 n hn
    have rem : ∀ e ∈ f.below, removeDirPrefix (below d (xs ++ e.1)) d = joinSlash (xs ++ e.1) := by
      intro e he
      apply remove_below h (names e he)
      intro hd n hn
      have hm : n ∈ xs ++ e.1 := List.mem_of_head? hn
      rcases List.mem_append.1 hm with hm | hm
      · exact hb hd n hm
      · exact hb' hd f hf e he n hm
    have rem0 : removeDirPrefix (below d xs) d = joinSlash xs :=
      remove_below h hx (fun hd n hn => hb hd n (List.mem_of_head? hn))
    -- the root itself is listed iff it is a file, and then it is not the music directory
    have hkeep : xs = [] → f.isDir = true := by
      intro e
      apply hroot
      rw [e] at hf
      simpa [below] using hf
    refine ⟨(if f.isDir then [] else [xs]) ++ (f.below.filter fun e => e.2 = false).map (fun e => xs ++ e.1), ?_, ?_, ?_⟩
    · rw [List.map_cons, List.map_map, List.filter_cons]
      have tail : ((f.below.map ((fun v : Path × Bool => (removeDirPrefix v.1 d, v.2)) ∘ fun e => (below d (xs ++ e.1), e.2))).filter
          (fun v => decide (v.1 ≠ []) && decide (v.2 = false))).map Prod.fst =
          ((f.below.filter fun e => e.2 = false).map (fun e => xs ++ e.1)).map joinSlash := by
        rw [List.map_congr_left (g := fun e => (joinSlash (xs ++ e.1), e.2)) (by intro e he; simp [rem e he])]
        rw [List.filter_map, List.map_map, List.map_map]
        rw [List.filter_congr (q := fun e => decide (e.2 = false))]
        · rfl
        · intro e he
          have : joinSlash (xs ++ e.1) ≠ [] := joinSlash_ne (names e he) (by simp [(hpf e he).1])
          simp [this]
      cases hd : f.isDir with
      | true =>
        rw [if_neg (by simp)]
        exact tail
      | false =>
        have hxne : xs ≠ [] := fun e => by simp [hkeep e] at hd
        have hj := joinSlash_ne hx hxne
        rw [if_pos (by simp [rem0, hj]), List.map_cons, tail]
        simp [rem0]
    · have tail : ((((f.below.map ((fun v : Path × Bool => (removeDirPrefix v.1 d, v.2)) ∘ fun e => (below d (xs ++ e.1), e.2))).filter
          (fun v => decide (v.1 ≠ []) && decide (v.2 = false))).map Prod.fst)).map (opened d) =
          ((f.below.map fun e => (below d (xs ++ e.1), e.2)).filter fun v => decide (v.2 = false)).map Prod.fst := by
        rw [List.map_congr_left (g := fun e => (joinSlash (xs ++ e.1), e.2)) (by intro e he; simp [rem e he])]
        rw [List.filter_map, List.map_map, List.map_map, List.filter_map, List.map_map]
        rw [List.filter_congr (q := fun e => decide (e.2 = false))]
        · apply List.map_congr_left
          intro e he
          exact open_rel _ (names e (List.mem_filter.1 he).1)
        · intro e he
          have : joinSlash (xs ++ e.1) ≠ [] := joinSlash_ne (names e he) (by simp [(hpf e he).1])
          simp [this]
      rw [List.map_cons, List.filter_cons, List.filter_cons]
      rw [← List.map_map] at tail
      cases hd : f.isDir with
      | true =>
        rw [if_neg (by simp), if_neg (by simp)]
        exact tail
      | false =>
        have hxne : xs ≠ [] := fun e => by simp [hkeep e] at hd
        have hj := joinSlash_ne hx hxne
        rw [if_pos (by simp [rem0, hj]), if_pos (by simp), List.map_cons, List.map_cons, List.map_cons, tail]
        simp only [rem0, open_rel xs hx]
    · intro r hr
      have hrn : r ≠ [] ∧ ∀ n ∈ r, Name n := by
        rcases List.mem_append.1 hr with hr | hr
        · cases hd : f.isDir with
          | true => simp [hd] at hr
          | false =>
            simp [hd] at hr; subst hr
            exact ⟨fun e => by simp [hkeep e] at hd, hx⟩
        · obtain ⟨e, he, rfl⟩ := List.mem_map.1 hr
          have he := (List.mem_filter.1 he).1
          exact ⟨by simp [(hpf e he).1], names e he⟩
      exact ⟨hrn.1, hrn.2, open_rel r hrn.2⟩

/-- C52, completions of `ls`: the names listed lead from the music directory to all the directories below it, in order, and to
nothing else; the music directory itself is not among them. -/
theorem C52_subdirs_partial (fs : FS) (hp : Proper fs) (d : Path) (h : CleanDir d) (hd : d ≠ ['/']) (f : Found)
    (hf : fs d = some f) :
    listAllSubDirs fs d = ((f.below.filter fun e => e.2 = true).map Prod.fst).map joinSlash ∧
    (listAllSubDirs fs d).map (opened d) = (f.below.filter fun e => e.2 = true).map fun e => below d e.1 := by
  have hpf := hp _ f hf
  have e1 : listAllSubDirs fs d = ((f.below.filter fun e => e.2 = true).map Prod.fst).map joinSlash := by
    unfold listAllSubDirs walker
    have hb : d = below d [] := by simp [below]
    conv => lhs; rw [hb]
    rw [visited_below h fs hp [] (by simp)]
    rw [← hb, hf]
    simp only [List.map_cons, List.map_map, List.nil_append]
    have r0 := remove_below h (xs := []) (by simp) (fun e => absurd e hd)
    rw [← hb] at r0
    rw [List.filter_cons, if_neg (by rw [r0]; simp [joinSlash, List.intercalate])]
    rw [List.map_congr_left (g := fun e => (joinSlash e.1, e.2))
      (by intro e he; simp [remove_below h (hpf e he).2 (fun e => absurd e hd)])]
    rw [List.filter_map, List.map_map, List.filter_congr (q := fun e => decide (e.2 = true))]
    · rfl
    · intro e he
      simp [joinSlash_ne (hpf e he).2 (hpf e he).1]
  refine ⟨e1, ?_⟩
  rw [e1, List.map_map, List.map_map]
  apply List.map_congr_left
  intro e he
  have hn := (hpf e (List.mem_filter.1 he).1).2
  simp only [Function.comp]
  rw [opened, join_below h _ (noUp_join hn), good_join hn]

/-- C52, matches of a pattern: a match below the music directory is opened by its name. -/
theorem C52_glob_partial (glob : Path → Option (List Path)) (isFile : Path → Bool) (d pattern : Path) (h : CleanDir d)
    (hd : d ≠ ['/']) (ms : List Path) (hg : glob (join d pattern) = some ms)
    (hm : ∀ m ∈ ms, ∃ r : List Path, (∀ n ∈ r, Name n) ∧ m = below d r) :
    ∃ names, listGlobFiles glob isFile d pattern = some names ∧ names.map (opened d) = ms.filter isFile := by
  refine ⟨(ms.filter isFile).map fun m => removeDirPrefix m d, by rw [listGlobFiles, hg]; rfl, ?_⟩
  rw [List.map_map]
  conv => rhs; rw [← List.map_id (ms.filter isFile)]
  apply List.map_congr_left
  intro m hmm
  obtain ⟨r, hr, rfl⟩ := hm m (List.mem_filter.1 hmm).1
  simp only [Function.comp, id]
  rw [remove_below h hr (fun e => absurd e hd), opened, join_below h _ (noUp_join hr), good_join hr]

/-- C52: songs are the files whose names end in .mp3. -/
theorem C52_songs (files : List Path) (f : Path) : f ∈ filterSongs files ↔ f ∈ files ∧ ∃ base, f = base ++ ".mp3".toList := by
  rw [filterSongs, List.mem_filter, List.isSuffixOf_iff_suffix]
  refine and_congr_right fun _ => ⟨fun ⟨b, e⟩ => ⟨b, e.symm⟩, fun ⟨b, e⟩ => ⟨b, e.symm⟩⟩

theorem head_join {q : List Path} (hq : ∀ n ∈ q, Name n) : (joinSlash q).head? ≠ some '/' := by
  intro e
  cases q with
  | nil => simp [joinSlash, List.intercalate, List.intersperse] at e
  | cons x xs =>
    have hx := hq x (by simp)
    cases x with
    | nil => exact absurd rfl hx.1
    | cons c x =>
      have hc : c ≠ '/' := by intro e; exact hx.2.1 (by simp [e])
      cases xs <;> simp [joinSlash, List.intercalate, List.intersperse, hc] at e

/-- Without a music directory (`--audio-dir ""`), a path of proper names is its own file. -/
theorem join_nil {r : List Path} (hr : ∀ n ∈ r, Name n) (hne : r ≠ []) : join [] (joinSlash r) = joinSlash r := by
  have hj := joinSlash_ne hr hne
  have hroot : rooted (joinSlash r) = false := by
    unfold rooted
    simp [head_join hr]
  have hst : stack (joinSlash r) = r := by
    have h1 := foldl_step_good (rooted (joinSlash r)) (split (joinSlash r)) (noUp_join hr) []
    unfold stack
    rw [h1]
    have := good_join hr
    unfold good at this
    simpa using this
  unfold join
  rw [if_neg (by simp), if_pos hj, clean, hroot]
  simp [hst, hne]

/-- C52, without a music directory: the names listed for a pattern are those of the files matched, and open them. -/
theorem C52_glob_no_dir (glob : Path → Option (List Path)) (isFile : Path → Bool) (r : List Path) (hr : ∀ n ∈ r, Name n)
    (hne : r ≠ []) (ms : List Path) (hg : glob (joinSlash r) = some ms)
    (hm : ∀ m ∈ ms, ∃ r : List Path, (∀ n ∈ r, Name n) ∧ r ≠ [] ∧ (joinSlash r).head? ≠ some '\\' ∧ m = joinSlash r) :
    listGlobFiles glob isFile [] (joinSlash r) = some (ms.filter isFile) ∧
      (ms.filter isFile).map (opened []) = ms.filter isFile := by
  have key : ∀ m ∈ ms, removeDirPrefix m [] = m ∧ opened [] m = m := by
    intro m hmm
    obtain ⟨q, hq, hqn, hb, rfl⟩ := hm m hmm
    refine ⟨?_, join_nil hq hqn⟩
    have h1 := head_join hq
    unfold removeDirPrefix
    cases hq' : joinSlash q with
    | nil => rfl
    | cons c t =>
      rw [hq'] at h1 hb
      simp only [List.head?_cons, ne_eq, Option.some.injEq] at h1 hb
      have a : ('/' == c) = false := by simp [Ne.symm h1]
      have b : ('\\' == c) = false := by simp [Ne.symm hb]
      simp [List.isPrefixOf, a, b]
  refine ⟨?_, ?_⟩
  · rw [listGlobFiles, join_nil hr hne, hg]
    simp only [Option.map_some, Option.some.injEq]
    conv => rhs; rw [← List.map_id (ms.filter isFile)]
    exact List.map_congr_left fun m h => (key m (List.mem_filter.1 h).1).1
  · conv => rhs; rw [← List.map_id (ms.filter isFile)]
    exact List.map_congr_left fun m h => (key m (List.mem_filter.1 h).1).2

/-- A file system with a single song `audio/x.mp3`, seen from the working directory. -/
def oneSong : FS := fun p =>
  if clean p = ['a', 'u', 'd', 'i', 'o'] then some ⟨true, [([['x', '.', 'm', 'p', '3']], false)]⟩
  else if clean p = ['.'] then
    some ⟨true, [([['.', 'h', '.', 'm', 'p', '3']], false), ([['a', 'u', 'd', 'i', 'o']], true),
      ([['a', 'u', 'd', 'i', 'o'], ['x', '.', 'm', 'p', '3']], false), ([['s', '.', 'm', 'p', '3']], false)]⟩
  else if clean p = ['a', 'u', 'd', 'i', 'o', '2'] then some ⟨true, [([['y', '.', 'm', 'p', '3']], false)]⟩
  else none

/-- C52 is false for other spellings of the music directory: with --music-dir=./audio the song `audio/x.mp3` is listed
under a name that opens `audio/audio/x.mp3`. -/
theorem C52_dot_slash : listAllFiles oneSong "./audio".toList [] = ["audio/x.mp3".toList] ∧
    opened "./audio".toList "audio/x.mp3".toList = "audio/audio/x.mp3".toList := by decide

/-- C52 is false for the working directory: the song `.h.mp3` is listed under a name that opens `h.mp3`. -/
theorem C52_working_dir : "h.mp3".toList ∈ listAllFiles oneSong ".".toList [] ∧
    opened ".".toList "h.mp3".toList = "h.mp3".toList ∧ ("h.mp3".toList, false) ∉ visited oneSong ".".toList := by decide

/-- The element `..`. -/
abbrev up : Path := ['.', '.']

theorem foldl_up (r : Bool) (k : Nat) (ds : List Path) (hd : ∀ n ∈ ds, Name n) :
    (List.replicate k up).foldl (step r) ds =
      (if r then [] else List.replicate (k - ds.length) up) ++ ds.take (ds.length - k) := by
  have ups : ∀ j k, (List.replicate k up).foldl (step false) (List.replicate j up) = List.replicate (j + k) up := by
    intro j k
    induction k generalizing j with
    | zero => simp
    | succ k ih =>
      rw [List.replicate_succ, List.foldl_cons]
      have : step false (List.replicate j up) up = List.replicate (j + 1) up := by
        cases j with
        | zero => rfl
        | succ j => simp [step, up, ← List.replicate_succ', List.getLast?_replicate]
      rw [this, ih]
      congr 1; omega
  induction k generalizing ds with
  | zero => simp
  | succ k ih =>
    rw [List.replicate_succ, List.foldl_cons]
    rcases List.eq_nil_or_concat ds with rfl | ⟨ds', l, rfl⟩
    · cases r with
      | true =>
        rw [show step true [] up = [] from rfl, ih [] (by simp)]
        simp
      | false =>
        rw [show step false [] up = [up] from rfl]
        have := ups 1 k
        simp only [List.replicate_one] at this
        rw [this]
        simp [Nat.add_comm]
    · have hl : Name l := hd l (by simp)
      have : step r (ds' ++ [l]) up = ds' := by simp [step, up, hl.2.2.2]
      rw [List.concat_eq_append, this, ih ds' (fun n hn => hd n (by simp [hn]))]
      simp only [List.length_append, List.length_cons, List.length_nil]
      rw [show k + 1 - (ds'.length + (0 + 1)) = k - ds'.length by omega,
        show ds'.length + (0 + 1) - (k + 1) = ds'.length - k by omega, List.take_append_of_le_length (by omega)]

theorem noSlash_up : '/' ∉ up := by decide

theorem foldl_names (r : Bool) (st xs : List Path) (h : ∀ n ∈ xs, Name n) : xs.foldl (step r) st = st ++ xs := by
  rw [foldl_step_good r xs (fun hm => (h _ hm).2.2.2 rfl)]
  congr 1
  rw [List.filter_eq_self]
  intro n hn
  have := h n hn
  simp [this.1, this.2.2.1]

/-- C52, what `..` does: below an absolute directory every leading `..` goes up one directory, and stays at the root when
there is none left; below a relative one it goes on above the working directory. -/
theorem C52_up (ds rs : List Path) (hd : ∀ n ∈ ds, Name n) (hr : ∀ n ∈ rs, Name n) (k : Nat) (hk : 0 < k) :
    join ('/' :: joinSlash ds) (joinSlash (List.replicate k up ++ rs)) =
      '/' :: joinSlash (ds.take (ds.length - k) ++ rs) ∧
    (ds ≠ [] → join (joinSlash ds) (joinSlash (List.replicate k up ++ rs)) =
      let e := List.replicate (k - ds.length) up ++ ds.take (ds.length - k) ++ rs
      if e = [] then ['.'] else joinSlash e) := by
  have hne : List.replicate k up ++ rs ≠ [] := by
    cases k with
    | zero => omega
    | succ k => simp [List.replicate_succ]
  have hns : ∀ n ∈ List.replicate k up ++ rs, '/' ∉ n := by
    intro n hn
    rcases List.mem_append.1 hn with h | h
    · rw [List.eq_of_mem_replicate h]; exact noSlash_up
    · exact (hr n h).2.1
  have hsplit := split_join hns hne
  constructor
  · rw [join, if_pos (by simp), clean]
    have hroot : rooted ('/' :: joinSlash ds ++ '/' :: joinSlash (List.replicate k up ++ rs)) = true := rfl
    rw [hroot, if_pos rfl]
    congr 2
    unfold stack
    rw [hroot, split_append, hsplit, List.foldl_append, List.foldl_append]
    have h1 : (split ('/' :: joinSlash ds)).foldl (step true) [] = ds := by
      rw [show ('/' :: joinSlash ds : Path) = [] ++ '/' :: joinSlash ds from rfl, split_append]
      by_cases hz : ds = []
      · subst hz; rfl
      · rw [split_join (fun n hn => (hd n hn).2.1) hz, List.foldl_append, foldl_names _ _ _ hd]
        rfl
    rw [h1, foldl_up true k ds hd, foldl_names _ _ _ hr]
    simp
  · intro hz
    have hj : joinSlash ds ≠ [] := by
      intro e
      have := split_join (fun n hn => (hd n hn).2.1) hz
      rw [e] at this
      simp [split] at this
      exact (hd [] (by rw [← this]; simp)).1 rfl
    rw [join, if_pos hj, clean]
    have hroot : rooted (joinSlash ds ++ '/' :: joinSlash (List.replicate k up ++ rs)) = false := by
      rw [rooted_append hj]
      unfold rooted
      have := head_join hd
      simpa using this
    have hst : stack (joinSlash ds ++ '/' :: joinSlash (List.replicate k up ++ rs)) =
        List.replicate (k - ds.length) up ++ ds.take (ds.length - k) ++ rs := by
      unfold stack
      rw [hroot, split_append, hsplit, split_join (fun n hn => (hd n hn).2.1) hz, List.foldl_append, List.foldl_append,
        foldl_names _ _ _ hd, List.nil_append, foldl_up false k ds hd, foldl_names _ _ _ hr]
      simp
    rw [hroot, hst]
    simp

example : join "/srv/music".toList "../../../etc".toList = "/etc".toList ∧
    join "music".toList "../../etc".toList = "../etc".toList := by decide

/-- C52 is false for subdirectories with `..`: `ls ..` lists files outside the music directory, under names that open
others. -/
theorem C52_escape : "s.mp3".toList ∈ listAllFiles oneSong "audio".toList "..".toList ∧
    opened "audio".toList "s.mp3".toList = "audio/s.mp3".toList := by decide

/-- C52 is false for subdirectories with `..`: the directory `audio2` is taken for a part of `audio`. -/
theorem C52_prefix_confusion : listAllFiles oneSong "audio".toList "../audio2".toList = ["2/y.mp3".toList] := by decide

section examples
theorem clean_audio : CleanDir "audio".toList := by unfold CleanDir; decide
theorem proper_one : Proper oneSong := by
  intro p f h e he
  unfold oneSong at h
  split at h
  · injection h with h; subst h; simp at he; subst he; simp [Name]
  · split at h
    · injection h with h; subst h; simp at he; rcases he with rfl | rfl | rfl | rfl <;> simp [Name]
    · split at h
      · injection h with h; subst h; simp at he; subst he; simp [Name]
      · simp at h
example : ∃ rels : List (List Path), listAllFiles oneSong "audio".toList [] = rels.map joinSlash ∧
      (listAllFiles oneSong "audio".toList []).map (opened "audio".toList) = filesBelow oneSong "audio".toList [] ∧
      ∀ r ∈ rels, r ≠ [] ∧ (∀ n ∈ r, Name n) ∧ opened "audio".toList (joinSlash r) = below "audio".toList r :=
  C52_list_partial oneSong proper_one "audio".toList [] clean_audio (by simp [NoUp, split]) [] (by decide) (by simp)
    (fun h => by simp at h) (by intro f h; have : oneSong "audio".toList = some ⟨true, [([['x', '.', 'm', 'p', '3']], false)]⟩ := rfl; rw [this] at h; injection h with h; subst h; rfl)
example : listAllFiles oneSong "audio".toList [] = ["x.mp3".toList] := by decide
/-- `m/a/b`, seen from above -/
def twoDirs : FS := fun p => if p = ['m'] then some ⟨true, [([['a']], true), ([['a'], ['b']], true), ([['a'], ['c']], false)]⟩ else none
example : listAllSubDirs twoDirs ['m'] = [['a'], ['a', '/', 'b']] :=
  (C52_subdirs_partial twoDirs (by
    intro p f h e he
    unfold twoDirs at h
    split at h
    · injection h with h; subst h; simp at he; rcases he with rfl | rfl | rfl <;> simp [Name]
    · simp at h) ['m'] (by unfold CleanDir; decide) (by decide) _ rfl).1.trans (by decide)
end examples

end MS.Files
