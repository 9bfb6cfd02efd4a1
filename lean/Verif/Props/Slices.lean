import Verif.Spec.Slices
import Verif.Props.PlaylistEdit
import Verif.Model.Sender
/-!
# Properties C122, C123: lists and slices
-/
namespace MS.Slices
open MS

section basics
variable {α : Type}

/-- A slice lies within its array. -/
def Valid (h : Heap α) (s : Slice) : Prop := s.arr < h.length ∧ s.off + s.cap ≤ (array h s).length ∧ s.len ≤ s.cap

theorem array_modify (h : Heap α) (k : Nat) (f : List α → List α) (s : Slice) (hs : s.arr < h.length) :
    array (h.modify k f) s = if s.arr = k then f (array h s) else array h s := by
  unfold array
  rw [List.getD_eq_getElem?_getD, List.getElem?_modify, List.getD_eq_getElem?_getD, List.getElem?_eq_getElem hs]
  by_cases hk : k = s.arr
  · simp [hk]
  · rw [if_neg (Ne.symm hk)]; simp [hk]

theorem array_append (h : Heap α) (x : List (List α)) (s : Slice) (hs : s.arr < h.length) : array (h ++ x) s = array h s := by
  unfold array
  rw [List.getD_eq_getElem?_getD, List.getElem?_append_left hs, List.getD_eq_getElem?_getD]

theorem array_fresh (h : Heap α) (a : List α) (o l c : Nat) : array (h ++ [a]) ⟨h.length, o, l, c⟩ = a := by
  simp [array]

theorem content_get (h : Heap α) (s : Slice) (i : Nat) :
    (content h s)[i]? = if i < s.len then (array h s)[s.off + i]? else none := by
  unfold content
  rw [List.getElem?_take, List.getElem?_drop]

theorem content_length {h : Heap α} {s : Slice} (hv : Valid h s) : (content h s).length = s.len := by
  unfold content
  rw [List.length_take, List.length_drop]
  have := hv.2.1; have := hv.2.2
  omega

theorem content_congr {h h' : Heap α} {s : Slice} (ha : array h' s = array h s) : content h' s = content h s := by
  unfold content; rw [ha]

theorem content_empty (h : Heap α) {s : Slice} (hs : s.len = 0) : content h s = [] := by
  unfold content; rw [hs, List.take_zero]

/-- writing one place -/
theorem content_set {h : Heap α} {s : Slice} (hv : Valid h s) (i : Nat) (v : α) :
    content (h.modify s.arr (·.set (s.off + i) v)) s = if i < s.len then (content h s).set i v else content h s := by
  apply List.ext_getElem?
  intro j
  rw [content_get, array_modify _ _ _ _ hv.1, if_pos rfl]
  have hc := content_length hv
  have h1 := hv.2.1; have h2 := hv.2.2
  by_cases hi : i < s.len
  · rw [if_pos hi, List.getElem?_set, List.getElem?_set, content_get, hc]
    by_cases hj : j < s.len
    · rw [if_pos hj, if_pos hj]
      by_cases hij : i = j
      · subst hij
        rw [if_pos rfl, if_pos rfl, if_pos hi, if_pos (by omega)]
      · rw [if_neg (by omega), if_neg hij]
    · rw [if_neg hj, if_neg (by omega), if_neg hj]
  · rw [if_neg hi, content_get]
    by_cases hj : j < s.len
    · rw [if_pos hj, if_pos hj, List.getElem?_set, if_neg (by omega)]
    · rw [if_neg hj, if_neg hj]

theorem valid_modify {h : Heap α} {s : Slice} (hv : Valid h s) (k : Nat) (f : List α → List α) (hf : ∀ a, (f a).length = a.length) :
    Valid (h.modify k f) s := by
  refine ⟨by rw [List.length_modify]; exact hv.1, ?_, hv.2.2⟩
  rw [array_modify _ _ _ _ hv.1]
  split
  · rw [hf]; exact hv.2.1
  · exact hv.2.1

theorem valid_append {h : Heap α} {s : Slice} (hv : Valid h s) (x : List (List α)) : Valid (h ++ x) s := by
  refine ⟨by rw [List.length_append]; have := hv.1; omega, ?_, hv.2.2⟩
  rw [array_append _ _ _ hv.1]; exact hv.2.1

/-- `t` shares nothing with `s`, now and later. -/
def Sep (t s : Slice) : Prop := t.arr ≠ s.arr ∨ t.len = 0

/-- The result of an operation on `s`: it contains `l`, and whatever is apart from `s` is as before and apart from it. -/
structure Done (h : Heap α) (s : Slice) (h' : Heap α) (s' : Slice) (l : List α) : Prop where
  valid : Valid h' s'
  content : content h' s' = l
  grows : h.length ≤ h'.length
  frame : ∀ t, Valid h t → Sep t s → Valid h' t ∧ Sep t s' ∧ Slices.content h' t = Slices.content h t

theorem Done.trans {h h1 h2 : Heap α} {s s1 s2 : Slice} {l1 l2 : List α} (d1 : Done h s h1 s1 l1) (d2 : Done h1 s1 h2 s2 l2) :
    Done h s h2 s2 l2 :=
  ⟨d2.valid, d2.content, Nat.le_trans d1.grows d2.grows, fun t ht hs =>
    have a := d1.frame t ht hs
    have b := d2.frame t a.1 a.2.1
    ⟨b.1, b.2.1, b.2.2.trans a.2.2⟩⟩

theorem done_append (zero : α) (grow : Nat) {h : Heap α} {s : Slice} (v : α) (hv : Valid h s) :
    Done h s (append zero grow h s v).1 (append zero grow h s v).2 (content h s ++ [v]) := by
  have hc := content_length hv
  unfold append
  by_cases hl : s.len < s.cap
  · rw [if_pos hl]
    have hv' : Valid h { s with len := s.len + 1 } := ⟨hv.1, hv.2.1, hl⟩
    refine ⟨valid_modify hv' _ _ (by simp), ?_, by simp, ?_⟩
    · have := content_set hv' s.len v
      rw [if_pos (Nat.lt_succ_self _)] at this
      rw [show content (h.modify s.arr (·.set (s.off + s.len) v)) { s with len := s.len + 1 } = _ from this]
      apply List.ext_getElem?
      intro j
      rw [List.getElem?_set, content_get, content_length hv']
      by_cases h1 : j < s.len
      · rw [if_neg (by omega), if_pos (show j < s.len + 1 by omega), List.getElem?_append_left (by omega), content_get, if_pos h1]; rfl
      · rw [List.getElem?_append_right (by omega), hc]
        by_cases h2 : s.len = j
        · subst h2; simp
        · rw [if_neg h2, if_neg (show ¬ j < s.len + 1 by omega), List.getElem?_eq_none (by simp; omega)]
    · intro t ht hs
      refine ⟨valid_modify ht _ _ (by simp), hs, ?_⟩
      rcases hs with hs | hs
      · apply content_congr
        rw [array_modify _ _ _ _ ht.1, if_neg hs]
      · rw [content_empty _ hs, content_empty _ hs]
  · rw [if_neg hl]
    refine ⟨⟨by simp, ?_, by simp⟩, ?_, by simp, ?_⟩
    · rw [array_fresh]; simp [hc]; omega
    · unfold content
      rw [array_fresh, List.drop_zero]
      show List.take (s.len + 1) (content h s ++ v :: List.replicate grow zero) = content h s ++ [v]
      rw [show content h s ++ v :: List.replicate grow zero = (content h s ++ [v]) ++ List.replicate grow zero by simp,
        List.take_left' (by simp [hc])]
    · intro t ht hs
      refine ⟨valid_append ht _, .inl (by have := ht.1; simp; omega), content_congr (array_append _ _ _ ht.1)⟩

theorem sliceFrom_ok {s : Slice} {i : Nat} (hi : i ≤ s.len) :
    sliceFrom s i = .ok { s with off := s.off + i, len := s.len - i, cap := s.cap - i } := by
  unfold sliceFrom; rw [if_neg (by omega)]

theorem content_from (h : Heap α) (s : Slice) (i : Nat) :
    content h { s with off := s.off + i, len := s.len - i, cap := s.cap - i } = (content h s).drop i := by
  unfold content
  rw [List.drop_take, List.drop_drop]
  rfl

/-- `copy(s[i:], s[j:])` on one slice is what the list model says. -/
theorem copy_self {h : Heap α} {s : Slice} (hv : Valid h s) {i j : Nat} (hi : i ≤ s.len) (hj : j ≤ s.len) :
    ∃ l, Playlist.goCopy (content h s) i j = .ok l ∧ l.length = s.len ∧
    Done h s (copy h { s with off := s.off + i, len := s.len - i, cap := s.cap - i }
      { s with off := s.off + j, len := s.len - j, cap := s.cap - j }) s l := by
  have hc := content_length hv
  have h1 := hv.2.1; have h2 := hv.2.2
  refine ⟨_, by unfold Playlist.goCopy; rw [if_neg (by omega)], ?_, ?_⟩
  · simp [hc]; omega
  · have hlen : ∀ a : List α, a.length = (array h s).length → (a.take (s.off + i) ++ (List.take (min (s.len - i) (s.len - j)) ((content h s).drop j)) ++
        a.drop (s.off + i + min (s.len - i) (s.len - j))).length = a.length := by
      intro a ha
      simp [hc]; omega
    have harr : ∀ t, Valid h t → array (copy h { s with off := s.off + i, len := s.len - i, cap := s.cap - i }
      { s with off := s.off + j, len := s.len - j, cap := s.cap - j }) t = if t.arr = s.arr then
        ((array h s).take (s.off + i) ++ (List.take (min (s.len - i) (s.len - j)) ((content h s).drop j)) ++
        (array h s).drop (s.off + i + min (s.len - i) (s.len - j))) else array h t := by
      intro t ht
      unfold copy
      rw [content_from]
      rw [array_modify _ _ _ _ ht.1]
      by_cases e : t.arr = s.arr
      · rw [if_pos e, if_pos e]
        have : array h t = array h s := by unfold array; rw [e]
        rw [this]
      · rw [if_neg e, if_neg e]
    have hval : ∀ t, Valid h t → Valid (copy h { s with off := s.off + i, len := s.len - i, cap := s.cap - i }
      { s with off := s.off + j, len := s.len - j, cap := s.cap - j }) t := by
      intro t ht
      refine ⟨?_, ?_, ht.2.2⟩
      · unfold copy; rw [List.length_modify]; exact ht.1
      · rw [harr t ht]
        split
        · rename_i e
          rw [hlen _ rfl]
          have : array h t = array h s := by unfold array; rw [e]
          rw [← this]
          exact ht.2.1
        · exact ht.2.1
    refine ⟨hval s hv, ?_, by unfold copy; rw [List.length_modify]; exact Nat.le_refl _, ?_⟩
    · apply List.ext_getElem?
      intro x
      rw [content_get, harr s hv, if_pos rfl, hc]
      generalize hn : min (s.len - i) (s.len - j) = n
      by_cases hx : x < s.len
      · rw [if_pos hx]
        by_cases hxi : x < i
        · rw [List.append_assoc, List.getElem?_append_left (by rw [List.length_take]; omega), List.getElem?_take, if_pos (by omega),
            List.append_assoc, List.getElem?_append_left (by rw [List.length_take]; omega), List.getElem?_take, if_pos hxi, content_get,
            if_pos hx]
        · by_cases hxn : x < i + n
          · rw [List.getElem?_append_left (by simp [hc]; omega), List.getElem?_append_right (by rw [List.length_take]; omega),
              List.getElem?_append_left (by simp [hc]; omega), List.getElem?_append_right (by rw [List.length_take]; omega)]
            simp only [List.length_take, hc]
            congr 1
            omega
          · rw [List.getElem?_append_right (by simp [hc]; omega), List.getElem?_append_right (by simp [hc]; omega),
              List.getElem?_drop, List.getElem?_drop, content_get]
            simp only [List.length_append, List.length_take, List.length_drop, hc]
            rw [if_pos (by omega)]
            congr 1
            omega
      · rw [if_neg hx, List.getElem?_eq_none (by simp [hc]; omega)]
    · intro t ht hs
      refine ⟨hval t ht, hs, ?_⟩
      rcases hs with hs | hs
      · apply content_congr
        rw [harr t ht, if_neg hs]
      · rw [content_empty _ hs, content_empty _ hs]

/-- `s[i] = v` is what the list model says. -/
theorem set_self {h : Heap α} {s : Slice} (hv : Valid h s) (i : Int) (v : α) :
    match Playlist.goSet (content h s) i v with
    | .panic => set h s i v = .panic
    | .ok l => ∃ h', set h s i v = .ok h' ∧ l.length = s.len ∧ Done h s h' s l := by
  have hc := content_length hv
  unfold Playlist.goSet set
  rw [hc]
  by_cases hi : i < 0 ∨ (s.len : Int) ≤ i
  · rw [if_pos hi, if_pos hi]
  · rw [if_neg hi, if_neg hi]
    refine ⟨_, rfl, by simp [hc], valid_modify hv _ _ (by simp), ?_, by simp, ?_⟩
    · rw [content_set hv, if_pos (by omega)]
    · intro t ht hs
      refine ⟨valid_modify ht _ _ (by simp), hs, ?_⟩
      rcases hs with hs | hs
      · apply content_congr
        rw [array_modify _ _ _ _ ht.1, if_neg hs]
      · rw [content_empty _ hs, content_empty _ hs]

theorem sliceTo_ok {h : Heap α} {s : Slice} (hv : Valid h s) {n : Nat} (hn : n ≤ s.len) :
    ∃ s', sliceTo s n = .ok s' ∧ s'.arr = s.arr ∧ Done h s h s' ((content h s).take n) := by
  have h2 := hv.2.2
  refine ⟨{ s with len := n }, by unfold sliceTo; rw [if_neg (by omega)], rfl, ⟨hv.1, hv.2.1, show n ≤ s.cap by omega⟩, ?_, Nat.le_refl _, ?_⟩
  · unfold content
    rw [List.take_take, Nat.min_eq_left hn]; rfl
  · intro t ht hs
    exact ⟨ht, hs, rfl⟩

end basics

/-! ## The playlist -/

theorem insert_done {h : Heap String} {s : Slice} (hv : Valid h s) (song : String) (i : Int) (grow : Nat) :
    ∃ l h' s', Playlist.insertSong (content h s) song i = .ok l ∧ insertSong h s song i grow = .ok (h', s') ∧ Done h s h' s' l := by
  have hc := content_length hv
  unfold Playlist.insertSong insertSong
  rw [hc]
  generalize hk : (if i < 0 then (0 : Int) else i) = k
  have hk0 : 0 ≤ k := by rw [← hk]; split <;> omega
  by_cases hl : (s.len : Int) < k
  · simp only
    rw [if_pos hl, if_pos hl]
    exact ⟨_, _, _, rfl, rfl, done_append "" grow song hv⟩
  · simp only
    rw [if_neg hl, if_neg hl]
    have d1 := done_append "" grow "" hv
    generalize append "" grow h s "" = r at *
    obtain ⟨h1, s1⟩ := r
    simp only at d1 ⊢
    have hc1 := content_length d1.valid
    rw [d1.content] at hc1
    simp only [List.length_append, List.length_cons, List.length_nil] at hc1
    obtain ⟨l2, e2, hl2, d2⟩ := copy_self d1.valid (i := k.toNat + 1) (j := k.toNat) (by omega) (by omega)
    rw [d1.content] at e2
    rw [e2, sliceFrom_ok (by omega), sliceFrom_ok (by omega)]
    simp only [Res.bind]
    have h3 := set_self d2.valid k song
    rw [d2.content] at h3
    split at h3
    · rename_i hp
      unfold Playlist.goSet at hp
      rw [if_neg (by omega)] at hp
      cases hp
    · rename_i l3 e3
      obtain ⟨h', e4, -, d3⟩ := h3
      refine ⟨l3, h', s1, e3, ?_, d1.trans (d2.trans d3)⟩
      rw [e4]
      rfl

theorem remove_done {h : Heap String} {s : Slice} (hv : Valid h s) (i : Int) :
    match Playlist.removeSong (content h s) i with
    | .panic => removeSong h s i = .panic
    | .ok (r, l) => ∃ h' s', removeSong h s i = .ok (r, h', s') ∧ Done h s h' s' l := by
  have hc := content_length hv
  unfold Playlist.removeSong removeSong
  rw [hc]
  by_cases h0 : s.len = 0
  · rw [if_pos h0, if_pos h0]
    exact ⟨h, s, rfl, hv, rfl, Nat.le_refl _, fun t ht hs => ⟨ht, hs, rfl⟩⟩
  · rw [if_neg h0, if_neg h0]
    simp only
    generalize hk : (if i < 0 then (0 : Int) else i) = k
    have hk0 : 0 ≤ k := by rw [← hk]; split <;> omega
    by_cases hl : (s.len : Int) < k
    · rw [if_pos hl, if_pos hl]
      unfold get
      cases hg : Playlist.goGet (content h s) (s.len - 1) with
      | panic => rfl
      | ok r =>
        obtain ⟨s', e, -, d⟩ := sliceTo_ok hv (n := s.len - 1) (by omega)
        simp only [Res.map, Res.bind]
        rw [e]
        exact ⟨h, s', rfl, d⟩
    · rw [if_neg hl, if_neg hl]
      unfold get
      cases hg : Playlist.goGet (content h s) k with
      | panic => rfl
      | ok r =>
        have hlt : k.toNat < s.len := by
          unfold Playlist.goGet at hg
          rw [if_neg (by omega)] at hg
          split at hg
          · rename_i v hv'
            have := (List.getElem?_eq_some_iff.1 hv').1
            omega
          · cases hg
        obtain ⟨l2, e2, hl2, d2⟩ := copy_self hv (i := k.toNat) (j := k.toNat + 1) (by omega) (by omega)
        rw [e2, sliceFrom_ok (by omega), sliceFrom_ok (by omega)]
        simp only [Res.bind]
        rw [hl2]
        have h3 := set_self d2.valid ((s.len : Int) - 1) ""
        rw [d2.content] at h3
        split at h3
        · rename_i hp
          unfold Playlist.goSet at hp
          rw [if_neg (by omega)] at hp
          cases hp
        · rename_i l3 e3
          obtain ⟨h', e4, hl3, d3⟩ := h3
          obtain ⟨s', e5, -, d4⟩ := sliceTo_ok d3.valid (n := s.len - 1) (by omega)
          rw [e3, e4]
          simp only [Res.map]
          rw [e5, hl3, ← d3.content]
          exact ⟨h', s', rfl, d2.trans (d3.trans d4)⟩

theorem songs_done {h : Heap String} {s : Slice} (hv : Valid h s) :
    (songs h s).2.arr = h.length ∧ Valid (songs h s).1 (songs h s).2 ∧ content (songs h s).1 (songs h s).2 = content h s ∧
    ∀ t, Valid h t → Valid (songs h s).1 t ∧ content (songs h s).1 t = content h t := by
  have hc := content_length hv
  have harr : ∀ t : Slice, t.arr < h.length → array (songs h s).1 t = array h t := by
    intro t ht
    unfold songs copy make
    simp only
    rw [array_modify _ _ _ _ (by rw [List.length_append]; simp; omega), if_neg (by omega), array_append _ _ _ ht]
  have hnew : array (songs h s).1 ⟨h.length, 0, s.len, s.len⟩ = content h s := by
    unfold songs copy make
    simp only
    rw [array_modify _ _ _ _ (by simp), if_pos rfl, array_fresh, content_congr (array_append _ _ _ hv.1)]
    simp [hc, List.take_of_length_le]
  have hlen : (songs h s).1.length = h.length + 1 := by
    unfold songs copy make
    simp
  refine ⟨rfl, ⟨?_, ?_, ?_⟩, ?_, ?_⟩
  · rw [hlen]; exact Nat.lt_succ_self _
  · show 0 + s.len ≤ (array (songs h s).1 ⟨h.length, 0, s.len, s.len⟩).length
    rw [hnew, hc]; omega
  · exact Nat.le_refl _
  · show content (songs h s).1 ⟨h.length, 0, s.len, s.len⟩ = content h s
    rw [content, hnew, List.drop_zero]
    exact List.take_of_length_le (by rw [hc]; exact Nat.le_refl _)
  · intro t ht
    refine ⟨⟨by rw [hlen]; have := ht.1; omega, by rw [harr t ht.1]; exact ht.2.1, ht.2.2⟩, content_congr (harr t ht.1)⟩

/-! ## C122 -/

/-- What is in memory, as values. -/
def view (st : St) : SliceSpec.Vals := ⟨content st.heap st.songs, st.held.map (content st.heap)⟩

/-- The slices held by others share nothing with the playlist or with each other. -/
structure Inv (st : St) : Prop where
  valid : Valid st.heap st.songs
  held : ∀ t ∈ st.held, Valid st.heap t ∧ Sep t st.songs
  apart : ∀ (j k : Nat) (t u : Slice), st.held[j]? = some t → st.held[k]? = some u → j ≠ k → t.arr ≠ u.arr ∨ t.len = 0 ∨ u.len = 0

theorem inv_done {st : St} (hi : Inv st) {h' : Heap String} {s' : Slice} {l : List String} (d : Done st.heap st.songs h' s' l) :
    Inv { st with heap := h', songs := s' } ∧ view { st with heap := h', songs := s' } = { view st with songs := l } := by
  refine ⟨⟨d.valid, fun t ht => ?_, hi.apart⟩, ?_⟩
  · have := d.frame t (hi.held t ht).1 (hi.held t ht).2
    exact ⟨this.1, this.2.1⟩
  · unfold view
    simp only
    rw [d.content]
    congr 1
    apply List.map_congr_left
    intro t ht
    exact (d.frame t (hi.held t ht).1 (hi.held t ht).2).2.2

theorem step_view {st : St} (hi : Inv st) (a : Act) (grow : Nat) :
    match SliceSpec.step (view st) a with
    | .panic => step st grow a = .panic
    | .ok (v, out) => ∃ st', step st grow a = .ok (st', out) ∧ view st' = v ∧ Inv st' := by
  cases a with
  | add song =>
    have := inv_done hi (done_append "" grow song hi.valid)
    exact ⟨_, rfl, this.2, this.1⟩
  | insert song i =>
    obtain ⟨l, h', s', e1, e2, d⟩ := insert_done hi.valid song i grow
    have := inv_done hi d
    have hcl : min i.toNat (content st.heap st.songs).length ≤ (content st.heap st.songs).length := by omega
    rw [Playlist.C05_insert] at e1
    injection e1 with e1
    refine ⟨_, by simp only [step]; rw [e2]; rfl, ?_, this.1⟩
    rw [this.2, ← e1]
    unfold view
    simp only
    rw [Playlist.insertIdx_take_drop _ _ _ hcl]
    rfl
  | remove i =>
    have hr := remove_done hi.valid i
    simp only [SliceSpec.step]
    have hvs : (view st).songs = content st.heap st.songs := rfl
    rw [hvs]
    by_cases h0 : content st.heap st.songs = []
    · rw [if_pos h0]
      rw [h0, show Playlist.removeSong [] i = .ok ("", []) from rfl] at hr
      obtain ⟨h', s', e, d⟩ := hr
      have := inv_done hi d
      refine ⟨_, by simp only [step]; rw [e]; rfl, ?_, this.1⟩
      rw [this.2, ← h0]
      rfl
    · rw [if_neg h0]
      by_cases h1 : i = (content st.heap st.songs).length
      · rw [if_pos h1]
        rw [(Playlist.C05_remove_panics_iff _ _).2 ⟨h0, h1⟩] at hr
        show step st grow (.remove i) = .panic
        simp only [step]
        rw [show removeSong st.heap st.songs i = .panic from hr]
        rfl
      · rw [if_neg h1]
        have e := (Playlist.C05_remove_partial _ i (.inr h1)).2 h0
        simp only at e
        rw [e] at hr
        obtain ⟨h', s', e', d⟩ := hr
        have := inv_done hi d
        have hlt : min i.toNat ((content st.heap st.songs).length - 1) < (content st.heap st.songs).length := by
          have := List.length_pos_iff.2 h0; omega
        refine ⟨{ st with heap := h', songs := s' }, ?_, ?_, this.1⟩
        · simp only [step]
          rw [e']
          simp only [Res.map]
          congr 3
          rw [List.getD_eq_getElem?_getD, List.getElem?_eq_getElem hlt]
          rfl
        · rw [this.2, List.eraseIdx_eq_take_drop_succ]
          rfl
  | songs =>
    obtain ⟨h1, h2, h3, h4⟩ := songs_done hi.valid
    refine ⟨_, rfl, ?_, ?_⟩
    · unfold view
      simp only [List.map_append, List.map_cons, List.map_nil]
      rw [(h4 _ hi.valid).2, h3]
      congr 2
      apply List.map_congr_left
      intro t ht
      exact (h4 t (hi.held t ht).1).2
    · refine ⟨(h4 _ hi.valid).1, ?_, ?_⟩
      · intro t ht
        rcases List.mem_append.1 ht with ht | ht
        · exact ⟨(h4 t (hi.held t ht).1).1, (hi.held t ht).2⟩
        · rw [List.mem_singleton.1 ht]
          refine ⟨h2, .inl ?_⟩
          rw [h1]
          have := hi.valid.1
          show st.heap.length ≠ st.songs.arr
          omega
      · intro j k t u hj hk hjk
        simp only [List.getElem?_append] at hj hk
        split at hj
        · have ht := hi.held t (List.mem_of_getElem? hj)
          split at hk
          · exact hi.apart j k t u hj hk hjk
          · have hu := List.mem_singleton.1 (List.mem_of_getElem? hk)
            left
            rw [hu, h1]
            have := ht.1.1
            omega
        · have hu := List.mem_singleton.1 (List.mem_of_getElem? hj)
          split at hk
          · have ht := hi.held u (List.mem_of_getElem? hk)
            left
            rw [hu, h1]
            have := ht.1.1
            omega
          · rename_i a b
            have h5 := (List.getElem?_eq_some_iff.1 hj).1
            have h6 := (List.getElem?_eq_some_iff.1 hk).1
            simp only [List.length_cons, List.length_nil] at h5 h6
            omega
  | write j i x =>
    simp only [SliceSpec.step]
    have hvc : (view st).copies = st.held.map (content st.heap) := rfl
    rw [hvc]
    simp only [List.getElem?_map]
    cases ht : st.held[j]? with
    | none =>
      simp only [Option.map_none]
      exact ⟨st, by simp only [step]; rw [ht], rfl, hi⟩
    | some t =>
      simp only [Option.map_some]
      have hv := hi.held t (List.mem_of_getElem? ht)
      rw [content_length hv.1]
      by_cases hlt : i < t.len
      · rw [if_pos hlt]
        have e : set st.heap t (i : Int) x = .ok (st.heap.modify t.arr (·.set (t.off + i) x)) := by
          unfold set
          rw [if_neg (by omega)]
          rfl
        have hne : t.arr ≠ st.songs.arr := by
          rcases hv.2 with h | h
          · exact h
          · omega
        refine ⟨{ st with heap := st.heap.modify t.arr (·.set (t.off + i) x) }, by simp only [step]; rw [ht]; simp only; rw [e]; rfl, ?_, ?_⟩
        · unfold view
          simp only
          congr 1
          · apply content_congr
            rw [array_modify _ _ _ _ hi.valid.1, if_neg (fun h => hne h.symm)]
          · apply List.ext_getElem?
            intro k
            rw [List.getElem?_set, List.getElem?_map, List.length_map, List.getElem?_map]
            have hjl := (List.getElem?_eq_some_iff.1 ht).1
            by_cases hjk : j = k
            · subst hjk
              rw [if_pos rfl, if_pos hjl, ht]
              simp only [Option.map_some]
              rw [content_set hv.1, if_pos hlt]
            · rw [if_neg hjk]
              cases hu : st.held[k]? with
              | none => rfl
              | some u =>
                simp only [Option.map_some]
                have hu' := hi.held u (List.mem_of_getElem? hu)
                congr 1
                rcases hi.apart j k t u ht hu hjk with h | h | h
                · apply content_congr
                  rw [array_modify _ _ _ _ hu'.1.1, if_neg (fun e => h e.symm)]
                · omega
                · rw [content_empty _ h, content_empty _ h]
        · refine ⟨valid_modify hi.valid _ _ (by simp), fun u hu => ?_, hi.apart⟩
          exact ⟨valid_modify (hi.held u hu).1 _ _ (by simp), (hi.held u hu).2⟩
      · rw [if_neg hlt]
        show step st grow (.write j i x) = .panic
        simp only [step]
        rw [ht]
        simp only
        unfold set
        rw [if_pos (by omega)]
        rfl

theorem run_view {st : St} (hi : Inv st) (as : List (Act × Nat)) :
    (run st as).map (fun r => (view r.1, r.2)) = SliceSpec.run (view st) (as.map Prod.fst) := by
  induction as generalizing st with
  | nil => rfl
  | cons a as ih =>
    obtain ⟨a, grow⟩ := a
    have h := step_view hi a grow
    unfold run
    rw [List.map_cons]
    unfold SliceSpec.run
    split at h
    · rename_i e
      rw [e, h]
      rfl
    · rename_i v out e
      obtain ⟨st', e', rfl, hi'⟩ := h
      rw [e, e']
      simp only [Res.bind]
      rw [← ih hi']
      cases run st' as <;> rfl

/-- **C122** Whatever is done with a playlist, and whatever is written into the lists it has handed out, the playlist and every
such list have the contents they would have if every list were a value of its own, the same songs are returned and the same
calls crash: whatever spare room arrays have, edits of the playlist never show in a list handed out, and the other way round. It
starts with any slice of which the caller makes no further use. -/
theorem C122_values (h : Heap String) (given : Slice) (hv : Valid h given) (as : List (Act × Nat)) :
    (run ⟨h, given, []⟩ as).map (fun r => (view r.1, r.2)) = SliceSpec.run ⟨content h given, []⟩ (as.map Prod.fst) :=
  run_view (st := ⟨h, given, []⟩) ⟨hv, by simp, by simp⟩ as

/-- **C122** As the server does: it starts with an empty slice, which may be kept (and has room or not). -/
theorem C122_server (h : Heap String) (given : Slice) (hv : Valid h given) (hl : given.len = 0) (as : List (Act × Nat)) :
    (run ⟨h, given, [given]⟩ as).map (fun r => (view r.1, r.2)) = SliceSpec.run ⟨[], [[]]⟩ (as.map Prod.fst) := by
  have := run_view (st := ⟨h, given, [given]⟩) ⟨hv, by simpa using ⟨hv, .inr hl⟩, ?_⟩ as
  · rw [this]
    unfold view
    simp only [List.map_cons, List.map_nil]
    rw [content_empty _ hl]
  · intro j k t u hj hk hjk
    have h1 := (List.getElem?_eq_some_iff.1 hj).1
    have h2 := (List.getElem?_eq_some_iff.1 hk).1
    simp only [List.length_cons, List.length_nil] at h1 h2
    omega

/-- **C122** The slice handed to `NewPlaylist` is not copied: with songs in it, removing a song shows in the caller's slice, and
what the caller writes shows in the playlist. -/
theorem C122_given_shared :
    (run ⟨[["a", "b"]], ⟨0, 0, 2, 2⟩, [⟨0, 0, 2, 2⟩]⟩ [(.remove 0, 0)]).map (fun r => (view r.1, r.2)) =
      .ok (⟨["b"], [["b", ""]]⟩, ["a"]) ∧
    (run ⟨[["a", "b"]], ⟨0, 0, 2, 2⟩, [⟨0, 0, 2, 2⟩]⟩ [(.write 0 1 "x", 0)]).map (fun r => (view r.1, r.2)) =
      .ok (⟨["a", "x"], [["a", "x"]]⟩, []) := ⟨rfl, rfl⟩

/-! ## Toggles and chunks -/

section clean
variable {α : Type}

theorem clearLast_content (zero : α) {s : Slice} (n : Nat) : ∀ {h : Heap α}, Valid h s → n ≤ s.len →
    ∃ h', clearLast zero s n h = .ok h' ∧ Done h s h' s ((content h s).take (s.len - n) ++ List.replicate n zero) ∧
      array h' s = (array h s).take (s.off + (s.len - n)) ++ List.replicate n zero ++ (array h s).drop (s.off + s.len) := by
  induction n with
  | zero =>
    intro h hv _
    have hc := content_length hv
    refine ⟨h, rfl, ⟨hv, ?_, Nat.le_refl _, fun t ht hs => ⟨ht, hs, rfl⟩⟩, ?_⟩
    · rw [Nat.sub_zero, List.take_of_length_le (by omega)]; simp
    · simp
  | succ n ih =>
    intro h hv hn
    have hc := content_length hv
    have h1 := hv.2.1; have h2 := hv.2.2
    have h3 := set_self hv ((s.len : Int) - (n + 1)) zero
    unfold Playlist.goSet at h3
    rw [if_neg (by omega)] at h3
    simp only at h3
    obtain ⟨h', e, hl, d⟩ := h3
    have ei : ((s.len : Int) - (n + 1)).toNat = s.len - (n + 1) := by omega
    have harr : array h' s = (array h s).set (s.off + (s.len - (n + 1))) zero := by
      unfold set at e
      rw [if_neg (by omega), ei] at e
      injection e with e
      rw [← e, array_modify _ _ _ _ hv.1, if_pos rfl]
    rw [ei] at d
    obtain ⟨h'', e2, d2, ha⟩ := ih d.valid (by omega)
    refine ⟨h'', ?_, ?_, ?_⟩
    · unfold clearLast
      rw [e]
      exact e2
    · have := d.trans d2
      rw [d.content] at this
      refine ⟨this.valid, ?_, this.grows, this.frame⟩
      rw [this.content]
      apply List.ext_getElem?
      intro j
      simp only [List.getElem?_append, List.getElem?_take, List.getElem?_set, List.getElem?_replicate, List.length_take,
        List.length_set, hc]
      by_cases hj : j < s.len - (n + 1)
      · rw [if_pos (by omega), if_pos (by omega), if_neg (by omega), if_pos (by omega), if_pos hj]
      · rw [if_neg (show ¬ j < min (s.len - (n + 1)) s.len by omega)]
        by_cases hj2 : j = s.len - (n + 1)
        · rw [if_pos (by omega), if_pos (by omega), if_pos (by omega), if_pos (by omega), if_pos (by omega)]
        · rw [if_neg (by omega)]
          by_cases hj3 : j < s.len
          · rw [if_pos (by omega), if_pos (by omega)]
          · rw [if_neg (by omega), if_neg (by omega)]
    · rw [ha, harr]
      apply List.ext_getElem?
      intro j
      simp only [List.getElem?_append, List.getElem?_take, List.getElem?_set, List.getElem?_replicate, List.length_take,
        List.length_set, List.length_append, List.length_replicate, List.getElem?_drop]
      have : (array h s).length ≥ s.off + s.len := by omega
      grind

/-- the array after `copy(s, s[k:])` -/
theorem copy_array {h : Heap α} {s : Slice} (hv : Valid h s) {k : Nat} (hk : k ≤ s.len) :
    array (copy h s { s with off := s.off + k, len := s.len - k, cap := s.cap - k }) s =
      (array h s).take s.off ++ (content h s).drop k ++ (array h s).drop (s.off + (s.len - k)) := by
  have hc := content_length hv
  unfold copy
  rw [array_modify _ _ _ _ hv.1, if_pos rfl, content_from]
  simp only
  rw [Nat.min_eq_right (by omega), List.take_of_length_le (l := (content h s).drop k) (by rw [List.length_drop, hc]; omega)]

/-- cutting off the front, when there is enough -/
theorem cut_done (zero : α) {h : Heap α} {s : Slice} (hv : Valid h s) {k : Nat} (hk : k ≤ s.len) :
    ∃ h' s', cutFront zero h s k = .ok (h', s') ∧ Done h s h' s' ((content h s).drop k) ∧ s' = { s with len := s.len - k } ∧
      array h' s' = (array h s).take s.off ++ (content h s).drop k ++ List.replicate k zero ++ (array h s).drop (s.off + s.len) := by
  have hc := content_length hv
  have h1 := hv.2.1; have h2 := hv.2.2
  have hcp := copy_array hv hk
  obtain ⟨l, e1, hl, d1⟩ := copy_self hv (i := 0) (j := k) (by omega) hk
  have es : ({ s with off := s.off + 0, len := s.len - 0, cap := s.cap - 0 } : Slice) = s := rfl
  rw [es] at d1
  obtain ⟨h2', e2, d2, ha⟩ := clearLast_content zero (s := s) k d1.valid hk
  obtain ⟨s', e3, -, d3⟩ := sliceTo_ok d2.valid (n := s.len - k) (by omega)
  have hs' : s' = { s with len := s.len - k } := by
    unfold sliceTo at e3
    rw [if_neg (by omega)] at e3
    injection e3 with e3
    exact e3.symm
  refine ⟨h2', s', ?_, ?_, hs', ?_⟩
  · unfold cutFront
    rw [sliceFrom_ok hk]
    simp only [Res.bind]
    rw [e2]
    simp only
    rw [e3]
    rfl
  · have := d1.trans (d2.trans d3)
    refine ⟨this.valid, ?_, this.grows, this.frame⟩
    rw [this.content, d2.content, d1.content]
    unfold Playlist.goCopy at e1
    rw [if_neg (by omega)] at e1
    injection e1 with e1
    have hq : ((content h s).drop k).length = s.len - k := by rw [List.length_drop, hc]
    have hl' : l.take (s.len - k) = (content h s).drop k := by
      rw [← e1, List.take_zero, List.nil_append, hc, Nat.min_eq_right (by omega),
        List.take_of_length_le (l := (content h s).drop k) (by omega), List.take_left' hq]
    rw [hl', List.take_left' hq]
  · have : array h2' s' = array h2' s := by rw [hs']; rfl
    have hpq : ((array h s).take s.off ++ (content h s).drop k).length = s.off + (s.len - k) := by
      rw [List.length_append, List.length_take, List.length_drop, hc]; omega
    rw [this, ha, hcp, List.take_left' hpq]
    congr 1
    rw [List.drop_append, hpq, List.drop_eq_nil_of_le (by omega), List.nil_append, List.drop_drop]
    congr 1
    omega

/-- The array holds the elements of the slice and otherwise nothing. -/
def Clean (zero : α) (h : Heap α) (s : Slice) : Prop := s.off = 0 ∧ array h s = content h s ++ List.replicate (s.cap - s.len) zero

theorem clean_append (zero : α) (grow : Nat) {h : Heap α} {s : Slice} (v : α) (hv : Valid h s) (hcl : Clean zero h s) :
    Clean zero (append zero grow h s v).1 (append zero grow h s v).2 := by
  have hc := content_length hv
  have d := done_append zero grow v hv
  unfold Clean at *
  rw [d.content]
  unfold append
  by_cases hl : s.len < s.cap
  · rw [if_pos hl]
    refine ⟨hcl.1, ?_⟩
    have : ∀ f, array (h.modify s.arr f) { s with len := s.len + 1 } = f (array h s) := by
      intro f
      show array (h.modify s.arr f) s = _
      rw [array_modify _ _ _ _ hv.1, if_pos rfl]
    rw [this, hcl.2, hcl.1, Nat.zero_add]
    apply List.ext_getElem?
    intro j
    simp only [List.getElem?_set, List.getElem?_append, List.getElem?_replicate, List.length_append, List.length_cons, List.length_nil,
      hc, List.length_replicate, List.getElem?_cons]
    grind
  · rw [if_neg hl]
    refine ⟨rfl, ?_⟩
    rw [array_fresh]
    simp only
    rw [show s.len + 1 + grow - (s.len + 1) = grow by omega]
    simp

theorem clean_cut (zero : α) {h h' : Heap α} {s s' : Slice} {k : Nat} (hv : Valid h s) (hcl : Clean zero h s) (hk : k ≤ s.len)
    (e : cutFront zero h s k = .ok (h', s')) : Clean zero h' s' := by
  have hc := content_length hv
  have h2 := hv.2.2
  obtain ⟨h'', s'', e', d, hs, ha⟩ := cut_done zero hv hk
  rw [e] at e'
  cases e'
  unfold Clean at *
  rw [d.content, ha, hcl.2, hs, hcl.1, List.take_zero, List.nil_append]
  refine ⟨rfl, ?_⟩
  simp only
  rw [Nat.zero_add, ← hc, List.drop_left, List.append_assoc, List.replicate_append_replicate, hc]
  congr 2
  omega

theorem sort_array {h : Heap α} {s : Slice} (hv : Valid h s) (f : List α → List α) (t : Slice) (ht : Valid h t) :
    array (sortSlice h s f) t = if t.arr = s.arr then (array h s).take s.off ++ f (content h s) ++ (array h s).drop (s.off + s.len)
      else array h t := by
  unfold sortSlice
  rw [array_modify _ _ _ _ ht.1]
  split
  · rename_i e
    have : array h t = array h s := by unfold array; rw [e]
    rw [this]
  · rfl

theorem sort_done {h : Heap α} {s : Slice} (hv : Valid h s) (f : List α → List α) (hf : ∀ l, (f l).Perm l) :
    Done h s (sortSlice h s f) s (f (content h s)) := by
  have hc := content_length hv
  have h1 := hv.2.1; have h2 := hv.2.2
  have hfl : (f (content h s)).length = s.len := by rw [(hf _).length_eq, hc]
  have hval : ∀ t, Valid h t → Valid (sortSlice h s f) t := by
    intro t ht
    refine ⟨by unfold sortSlice; rw [List.length_modify]; exact ht.1, ?_, ht.2.2⟩
    rw [sort_array hv f t ht]
    split
    · rename_i e
      have : array h t = array h s := by unfold array; rw [e]
      have h3 := ht.2.1
      rw [this] at h3
      simp only [List.length_append, List.length_take, List.length_drop, hfl]
      omega
    · exact ht.2.1
  refine ⟨hval s hv, ?_, by unfold sortSlice; rw [List.length_modify]; exact Nat.le_refl _, ?_⟩
  · show ((array (sortSlice h s f) s).drop s.off).take s.len = _
    rw [sort_array hv f s hv, if_pos rfl, List.append_assoc, List.drop_left' (by rw [List.length_take]; omega), List.take_left' hfl]
  · intro t ht hs
    refine ⟨hval t ht, hs, ?_⟩
    rcases hs with hs | hs
    · apply content_congr
      rw [sort_array hv f t ht, if_neg hs]
    · rw [content_empty _ hs, content_empty _ hs]

theorem clean_sort (zero : α) {h : Heap α} {s : Slice} (hv : Valid h s) (hcl : Clean zero h s) (f : List α → List α)
    (hf : ∀ l, (f l).Perm l) : Clean zero (sortSlice h s f) s := by
  have hc := content_length hv
  have d := sort_done hv f hf
  unfold Clean at *
  refine ⟨hcl.1, ?_⟩
  rw [d.content, sort_array hv f s hv, if_pos rfl, hcl.1, List.take_zero, List.nil_append, Nat.zero_add, hcl.2]
  congr 1
  rw [List.drop_left' hc]

theorem op_step (zero : α) {h : Heap α} {s : Slice} (hv : Valid h s) (hcl : Clean zero h s) (o : Op α) (ho : SliceSpec.Permutes o) :
    match SliceSpec.opStep (content h s) o with
    | .panic => opStep zero (h, s) o = .panic
    | .ok l => ∃ h' s', opStep zero (h, s) o = .ok (h', s') ∧ Done h s h' s' l ∧ Clean zero h' s' := by
  cases o with
  | append v grow => exact ⟨_, _, rfl, done_append zero grow v hv, clean_append zero grow v hv hcl⟩
  | cut k =>
    simp only [SliceSpec.opStep, content_length hv]
    by_cases hk : s.len < k
    · rw [if_pos hk]
      simp only [opStep, cutFront, sliceFrom]
      rw [if_pos hk]
      rfl
    · rw [if_neg hk]
      obtain ⟨h', s', e, d, -, -⟩ := cut_done zero hv (k := k) (by omega)
      exact ⟨h', s', e, d, clean_cut zero hv hcl (by omega) e⟩
  | sort f => exact ⟨_, _, rfl, sort_done hv f ho, clean_sort zero hv hcl f ho⟩

theorem op_run (zero : α) (ops : List (Op α)) : ∀ {h : Heap α} {s : Slice}, Valid h s → Clean zero h s →
    (∀ o ∈ ops, SliceSpec.Permutes o) →
    match SliceSpec.opRun (content h s) ops with
    | .panic => opRun zero (h, s) ops = .panic
    | .ok l => ∃ h' s', opRun zero (h, s) ops = .ok (h', s') ∧ Done h s h' s' l ∧ Clean zero h' s' := by
  induction ops with
  | nil => intro h s hv hcl _; exact ⟨h, s, rfl, ⟨hv, rfl, Nat.le_refl _, fun t ht hs => ⟨ht, hs, rfl⟩⟩, hcl⟩
  | cons o ops ih =>
    intro h s hv hcl ho
    have h1 := op_step zero hv hcl o (ho o (by simp))
    unfold SliceSpec.opRun opRun
    cases e : SliceSpec.opStep (content h s) o with
    | panic =>
      rw [e] at h1
      simp only at h1
      rw [h1]
      rfl
    | ok l =>
      rw [e] at h1
      obtain ⟨h', s', e', d, hcl'⟩ := h1
      have h2 := ih d.valid hcl' (fun o h => ho o (by simp [h]))
      rw [d.content] at h2
      rw [e']
      simp only [Res.bind]
      cases e2 : SliceSpec.opRun l ops with
      | panic => rw [e2] at h2; exact h2
      | ok l2 =>
        rw [e2] at h2
        obtain ⟨h'', s'', e3, d2, hc2⟩ := h2
        exact ⟨h'', s'', e3, d.trans d2, hc2⟩

/-- The slice before the first append. -/
def nothing : Heap α × Slice := ([[]], ⟨0, 0, 0, 0⟩)

theorem nothing_valid : Valid (nothing (α := α)).1 (nothing (α := α)).2 := ⟨Nat.one_pos, Nat.le_refl _, Nat.le_refl _⟩

/-- **C122** The toggles kept by the server, and the toggles and chunks kept by an infoer, have the contents they would have as
lists, whatever happens and whatever spare room arrays have: cutting off the front drops exactly so many elements (and crashes
exactly if there are fewer), nothing is lost or duplicated by moving elements within an array. -/
theorem C122_queues (zero : α) (ops : List (Op α)) (ho : ∀ o ∈ ops, SliceSpec.Permutes o) :
    (opRun zero nothing ops).map (fun st => content st.1 st.2) = SliceSpec.opRun [] ops := by
  have := op_run zero ops nothing_valid (h := (nothing (α := α)).1) ⟨rfl, rfl⟩ ho
  have e : content (nothing (α := α)).1 (nothing (α := α)).2 = [] := rfl
  rw [e] at this
  split at this
  · rename_i e1; rw [e1, show opRun zero nothing ops = .panic from this]; rfl
  · rename_i l e1
    obtain ⟨h', s', e2, d, -⟩ := this
    rw [e1, show opRun zero nothing ops = .ok (h', s') from e2]
    simp only [Res.map]
    rw [d.content]

/-- **C123** Toggles and chunks that have been cut off are not kept in memory: besides the elements there are, the array holds
nothing. -/
theorem C123_cut_off_is_gone (zero : α) (ops : List (Op α)) (ho : ∀ o ∈ ops, SliceSpec.Permutes o) (h : Heap α) (s : Slice)
    (hr : opRun zero nothing ops = .ok (h, s)) : ∃ l n, SliceSpec.opRun [] ops = .ok l ∧ array h s = l ++ List.replicate n zero := by
  have := op_run zero ops nothing_valid (h := (nothing (α := α)).1) ⟨rfl, rfl⟩ ho
  have e : content (nothing (α := α)).1 (nothing (α := α)).2 = [] := rfl
  rw [e] at this
  split at this
  · rw [show opRun zero nothing ops = .panic from this] at hr; cases hr
  · rename_i l e1
    obtain ⟨h', s', e2, d, hcl⟩ := this
    rw [show opRun zero nothing ops = .ok (h', s') from e2] at hr
    cases hr
    refine ⟨l, s.cap - s.len, e1, ?_⟩
    rw [hcl.2, d.content]

end clean

/-! ## Connections -/

/-- **C122** Connections: removing one in memory is what the list model of C27 and C72 does. -/
theorem C122_connections {h : Heap Nat} {s : Slice} (hv : Valid h s) (c : Nat) (channels : Nat → Option (List Int32)) (grow : Nat) :
    content (append 0 grow h s c).1 (append 0 grow h s c).2 = (Sender.addConn ⟨content h s, channels⟩ c).connections ∧
    ∃ h' s', delConn h s c = .ok (h', s') ∧ Valid h' s' ∧ content h' s' = (Sender.delConn ⟨content h s, channels⟩ c).connections := by
  have hc := content_length hv
  refine ⟨(done_append 0 grow c hv).content, ?_⟩
  unfold delConn Sender.delConn
  simp only
  cases hf : (content h s).findIdx? (· == c) with
  | none => exact ⟨h, s, rfl, hv, rfl⟩
  | some index =>
    simp only
    have hlt : index < s.len := by
      rw [← hc]
      have := List.findIdx?_eq_some_iff_findIdx_eq.1 hf
      omega
    have eg : get h s ((s.len : Int) - 1) = .ok ((content h s).getLastD 0) := by
      unfold get
      rw [show ((s.len : Int) - 1) = ((s.len - 1 : Nat) : Int) by omega, Playlist.goGet_ok _ _ (by omega)]
      congr 1
      have : (content h s)[(content h s).length - 1]? = some (content h s)[s.len - 1] := by
        rw [← List.getElem?_eq_getElem]; simp only [hc]
      rw [List.getLastD_eq_getLast?, List.getLast?_eq_getElem?, this]
      rfl
    have h3 := set_self hv (index : Int) ((content h s).getLastD 0)
    rw [Playlist.goSet_ok _ _ _ (by omega)] at h3
    obtain ⟨h', e, hl, d⟩ := h3
    obtain ⟨s', e2, -, d2⟩ := sliceTo_ok d.valid (n := s.len - 1) (by omega)
    refine ⟨h', s', ?_, d2.valid, ?_⟩
    · rw [eg]
      simp only [Res.bind]
      rw [e]
      simp only
      rw [e2]
      rfl
    · rw [d2.content, d.content, List.dropLast_eq_take, List.length_set, hc]

/-- **C123** fails for connections: one that has been removed is still referenced, until another takes its place. -/
theorem C123_connections_kept : ∃ h s, delConn (append 0 3 [[]] ⟨0, 0, 0, 0⟩ 7).1 (append 0 3 [[]] ⟨0, 0, 0, 0⟩ 7).2 7 = .ok (h, s) ∧
    content h s = [] ∧ 7 ∈ array h s := ⟨_, _, rfl, rfl, by decide⟩

/-! ## The chunks of a player -/

section chunks
variable {α : Type}

/-- The chunks waiting. -/
def specChunk (l : List α) : ChunkOp α → List α
  | .queue c _ => l ++ [c]
  | .next => l.tail

theorem chunk_step (zero : α) {h : Heap α} {s : Slice} (hv : Valid h s) (o : ChunkOp α) :
    Valid (chunkStep zero (h, s) o).1 (chunkStep zero (h, s) o).2 ∧
    content (chunkStep zero (h, s) o).1 (chunkStep zero (h, s) o).2 = specChunk (content h s) o := by
  have hc := content_length hv
  cases o with
  | queue c grow => exact ⟨(done_append zero grow c hv).valid, (done_append zero grow c hv).content⟩
  | next =>
    simp only [chunkStep, specChunk]
    by_cases h0 : 0 < s.len
    · rw [if_pos h0, sliceFrom_ok (by omega)]
      simp only
      have h1 := hv.2.1; have h2 := hv.2.2
      refine ⟨⟨hv.1, ?_, ?_⟩, ?_⟩
      · show s.off + 1 + (s.cap - 1) ≤ (array h s).length
        omega
      · show s.len - 1 ≤ s.cap - 1
        omega
      · rw [content_from, List.drop_one]
    · rw [if_neg h0]
      refine ⟨hv, ?_⟩
      have : content h s = [] := content_empty h (by omega)
      rw [this]; rfl

/-- **C122** The chunks waiting at a player are those queued and not yet taken, in order. -/
theorem C122_chunks (zero : α) (ops : List (ChunkOp α)) :
    content (ops.foldl (chunkStep zero) nothing).1 (ops.foldl (chunkStep zero) nothing).2 = ops.foldl specChunk [] := by
  have main : ∀ (ops : List (ChunkOp α)) (h : Heap α) (s : Slice), Valid h s →
      content (ops.foldl (chunkStep zero) (h, s)).1 (ops.foldl (chunkStep zero) (h, s)).2 = ops.foldl specChunk (content h s) := by
    intro ops
    induction ops with
    | nil => intros; rfl
    | cons o ops ih =>
      intro h s hv
      have := chunk_step zero hv o
      rw [List.foldl_cons, List.foldl_cons, ← this.2]
      exact ih _ _ this.1
  exact main ops _ _ nothing_valid

/-- The waiting chunks never are more than `b`, and an array that is replaced gets at most `g` places more than needed. -/
def Within (b g : Nat) : List α → List (ChunkOp α) → Prop
  | l, [] => l.length ≤ b
  | l, o :: os => l.length ≤ b ∧ (∀ c grow, o = .queue c grow → grow ≤ g) ∧ Within b g (specChunk l o) os

/-- **C123** A player keeps chunks it has already taken, but only so many: if there never are more than `b` waiting, and the
runtime adds at most `g` places to an array that it replaces, then never more than `b + g` are kept, however many have come
through. -/
theorem C123_chunks_bounded (zero : α) (b g : Nat) (ops : List (ChunkOp α)) (hw : Within b g [] ops) :
    (array (ops.foldl (chunkStep zero) nothing).1 (ops.foldl (chunkStep zero) nothing).2).length ≤ b + g := by
  have main : ∀ (ops : List (ChunkOp α)) (h : Heap α) (s : Slice), Valid h s → (array h s).length ≤ b + g → Within b g (content h s) ops →
      (array (ops.foldl (chunkStep zero) (h, s)).1 (ops.foldl (chunkStep zero) (h, s)).2).length ≤ b + g := by
    intro ops
    induction ops with
    | nil => intro h s _ ha _; exact ha
    | cons o ops ih =>
      intro h s hv ha hw
      have hc := content_length hv
      obtain ⟨-, h2, h3⟩ := hw
      have hst := chunk_step zero hv o
      rw [List.foldl_cons]
      apply ih _ _ hst.1
      · cases o with
        | queue c grow =>
          have hg := h2 c grow rfl
          have hlen : s.len + 1 ≤ b := by
            have : (specChunk (content h s) (.queue c grow)).length ≤ b := by
              cases ops with
              | nil => exact h3
              | cons _ _ => exact h3.1
            simp only [specChunk, List.length_append, List.length_cons, List.length_nil, hc] at this
            omega
          simp only [chunkStep, append]
          by_cases hl : s.len < s.cap
          · rw [if_pos hl, array_modify _ _ _ _ (by exact hv.1), if_pos rfl]
            show ((array h s).set _ _).length ≤ _
            rw [List.length_set]
            exact ha
          · rw [if_neg hl, array_fresh]
            simp only [List.length_append, List.length_cons, List.length_replicate, hc]
            omega
        | next =>
          simp only [chunkStep]
          by_cases h0 : 0 < s.len
          · rw [if_pos h0, sliceFrom_ok (by omega)]
            exact ha
          · rw [if_neg h0]
            exact ha
      · rw [hst.2]; exact h3
  exact main ops _ _ nothing_valid (by show 0 ≤ b + g; omega) hw

/-- **C123** Chunks that have been taken are still referenced. -/
theorem C123_chunks_kept (zero c : α) : content (chunkStep zero (chunkStep zero nothing (.queue c 1)) .next).1
      (chunkStep zero (chunkStep zero nothing (.queue c 1)) .next).2 = [] ∧
    c ∈ array (chunkStep zero (chunkStep zero nothing (.queue c 1)) .next).1 (chunkStep zero (chunkStep zero nothing (.queue c 1)) .next).2 :=
  ⟨rfl, List.mem_cons_self⟩

end chunks

/-! ## Examples -/

section examples

/-- A playlist is edited, handed out, the list handed out is overwritten, and the playlist is edited again; the second array has
room, the first has none. -/
example : (run ⟨[[]], ⟨0, 0, 0, 0⟩, []⟩ [(.add "a", 0), (.add "b", 2), (.songs, 0), (.write 0 0 "x", 0), (.insert "c" 0, 0), (.songs, 0),
    (.remove 2, 0)]).map (fun r => (view r.1, r.2)) = .ok (⟨["c", "a"], [["x", "b"], ["c", "a", "b"]]⟩, ["b"]) := rfl
example : Valid [["a", "b", ""]] ⟨0, 1, 1, 2⟩ := ⟨by decide, by decide, by decide⟩
example : (opRun 0 nothing [.append 1 1, .append 2 0, .append 3 5, .cut 2, .sort List.reverse, .append 4 0]).map (fun st => array st.1 st.2) =
    .ok [3, 4, 0, 0, 0, 0, 0, 0] := rfl
example : SliceSpec.Permutes (Op.sort (α := Nat) List.reverse) := fun l => List.reverse_perm l
example : Within 1 1 [] [ChunkOp.queue 5 1, .next, .queue 6 1, .next, .queue 7 0] := by simp [Within, specChunk]
/-- `RemoveSong` with a position too far behind leaves the song in the array. -/
example : (removeSong [["a", "b"]] ⟨0, 0, 2, 2⟩ 9).map (fun r => (r.1, array r.2.1 r.2.2)) = .ok ("b", ["a", "b"]) ∧
    (removeSong [["a", "b"]] ⟨0, 0, 2, 2⟩ 1).map (fun r => (r.1, array r.2.1 r.2.2)) = .ok ("b", ["a", ""]) := ⟨rfl, rfl⟩

end examples

end MS.Slices
