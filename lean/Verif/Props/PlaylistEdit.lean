import Verif.Model.PlaylistEdit
/-!
# Property C05: playlist edits act on an ordered list with clipped positions
-/
namespace MS.Playlist

/-- Specification: clip an index to `[0, n]`. -/
def clip (i : Int) (n : Nat) : Nat := min i.toNat n

theorem goCopy_shift_up (l : List String) (i : Nat) (hi : i ≤ l.length) :
    goCopy (l ++ [""]) (i + 1) i =
      .ok (l.take i ++ (l ++ [""])[i]'(by simp; omega) :: l.drop i) := by
  unfold goCopy
  have h1 : ¬ ((l ++ [""]).length < i + 1 ∨ (l ++ [""]).length < i) := by simp; omega
  rw [if_neg h1]
  simp only
  congr 1
  apply List.ext_getElem?
  intro j
  simp only [List.getElem?_append, List.getElem?_take, List.getElem?_drop, List.length_append, List.length_take,
    List.length_drop, List.length_cons, List.length_nil, List.getElem?_cons]
  grind

theorem goSet_ok {α : Type} (l : List α) (i : Nat) (v : α) (h : i < l.length) :
    goSet l (i : Int) v = .ok (l.set i v) := by
  unfold goSet
  rw [if_neg (by omega)]
  simp

theorem goGet_ok {α : Type} (l : List α) (i : Nat) (h : i < l.length) : goGet l (i : Int) = .ok l[i] := by
  unfold goGet
  rw [if_neg (by omega)]
  simp [h]

/-- C05, insert: `InsertSong` never crashes and the new list is the old one with the song inserted at the clipped
position: the songs before stay, the songs from there on follow. -/
theorem C05_insert (songs : List String) (song : String) (i : Int) :
    insertSong songs song i =
      .ok (songs.take (clip i songs.length) ++ song :: songs.drop (clip i songs.length)) := by
  have h0 : (if i < 0 then 0 else i) = (i.toNat : Int) := by split <;> omega
  unfold insertSong
  simp only [h0]
  split
  · rename_i h
    have : clip i songs.length = songs.length := by unfold clip; omega
    rw [this]; simp
  · rename_i h
    have hc : clip i songs.length = i.toNat := by unfold clip; omega
    have hle : i.toNat ≤ songs.length := by omega
    rw [hc]
    simp only [Int.toNat_natCast]
    rw [goCopy_shift_up songs i.toNat hle]
    simp only [Res.bind]
    rw [goSet_ok _ _ _ (by simp; omega)]
    congr 1
    rw [List.set_append_right _ _ (by rw [List.length_take]; omega)]
    have hlen : (songs.take i.toNat).length = i.toNat := by simp; omega
    rw [hlen]
    simp

theorem goCopy_shift_down (l : List String) (i : Nat) (hi : i < l.length) :
    goCopy l i (i + 1) = .ok (l.take i ++ l.drop (i + 1) ++ [l[l.length - 1]'(by omega)]) := by
  unfold goCopy
  have h1 : ¬ (l.length < i ∨ l.length < i + 1) := by omega
  rw [if_neg h1]
  simp only
  congr 1
  apply List.ext_getElem?
  intro j
  simp only [List.getElem?_append, List.getElem?_take, List.getElem?_drop, List.length_append, List.length_take,
    List.length_drop, List.getElem?_singleton]
  grind

/-- C05, remove, the part that holds: unless the index equals the length, `RemoveSong` does not crash; it returns
the song at the index clipped to `[0, len-1]` and the list keeps every other song in order; on the empty list it
returns "" and changes nothing. Missing from the full property: index = length (`C05_remove_at_length_panics`). -/
theorem C05_remove_partial (songs : List String) (i : Int) (h : songs = [] ∨ i ≠ songs.length) :
    (songs = [] → removeSong songs i = .ok ("", [])) ∧
    (∀ hne : songs ≠ [],
      have hlt : clip i (songs.length - 1) < songs.length := by
        have := List.length_pos_iff.2 hne; unfold clip; omega
      removeSong songs i = .ok (songs[clip i (songs.length - 1)],
        songs.take (clip i (songs.length - 1)) ++ songs.drop (clip i (songs.length - 1) + 1))) := by
  constructor
  · rintro rfl; rfl
  · intro hne
    have hpos := List.length_pos_iff.2 hne
    have h0 : (if i < 0 then 0 else i) = (i.toNat : Int) := by split <;> omega
    have hi : i ≠ songs.length := by rcases h with h | h; exact absurd h hne; exact h
    simp only
    unfold removeSong
    rw [if_neg (by omega)]
    simp only [h0]
    split
    · rename_i hbig
      have hc : clip i (songs.length - 1) = songs.length - 1 := by unfold clip; omega
      have hcast : (songs.length : Int) - 1 = ((songs.length - 1 : Nat) : Int) := by omega
      rw [hcast, goGet_ok songs (songs.length - 1) (by omega)]
      simp only [Res.map, hc]
      congr 2
      rw [List.drop_eq_nil_of_le (by omega)]
      simp
    · rename_i hsmall
      have hlt : i.toNat < songs.length := by omega
      have hc : clip i (songs.length - 1) = i.toNat := by unfold clip; omega
      rw [goGet_ok songs i.toNat hlt]
      simp only [Res.bind, Int.toNat_natCast]
      rw [goCopy_shift_down songs i.toNat hlt]
      simp only [Res.map]
      have hl : (songs.take i.toNat ++ songs.drop (i.toNat + 1)).length = songs.length - 1 := by
        simp; omega
      have hcast : ((songs.take i.toNat ++ songs.drop (i.toNat + 1) ++ [songs[songs.length - 1]]).length : Int) - 1 =
          ((songs.length - 1 : Nat) : Int) := by
        rw [List.length_append, hl]; simp
      rw [hcast, goSet_ok _ _ _ (by rw [List.length_append, hl]; simp)]
      simp only [hc]
      congr 2
      rw [List.length_set, List.length_append, hl]
      rw [List.set_append_right _ _ (by omega)]
      have : songs.length - 1 + [songs[songs.length - 1]].length - 1 = songs.length - 1 := by simp
      rw [this]
      exact List.take_left' hl

/-- C05 fails at one index: removing at index = number of songs (e.g. `remove` of the position one past the end, on
any non-empty playlist) crashes the server (playback/playlist.go:201 tests `<` where `<=` is needed). -/
theorem C05_remove_at_length_panics (songs : List String) (h : songs ≠ []) :
    removeSong songs songs.length = .panic := by
  have hpos := List.length_pos_iff.2 h
  unfold removeSong
  rw [if_neg (by omega)]
  simp only [show (if (songs.length : Int) < 0 then 0 else (songs.length : Int)) = songs.length by
    rw [if_neg (by omega)]]
  rw [if_neg (by omega)]
  simp [goGet, Res.bind]

/-- C05, crash freedom exactly: `RemoveSong` crashes iff the playlist is non-empty and the index is its length. -/
theorem C05_remove_panics_iff (songs : List String) (i : Int) :
    removeSong songs i = .panic ↔ songs ≠ [] ∧ i = songs.length := by
  constructor
  · intro h
    by_cases hs : songs = []
    · subst hs; cases h
    · refine ⟨hs, ?_⟩
      by_cases hi : i = songs.length
      · exact hi
      · have := (C05_remove_partial songs i (Or.inr hi)).2 hs
        rw [h] at this
        cases this
  · rintro ⟨h, rfl⟩
    exact C05_remove_at_length_panics songs h

/-- C05, append and read: after `AddSong` the song is last and everything else unchanged; `Songs` returns the list. -/
theorem C05_add (songs : List String) (song : String) :
    getSongs (addSong songs song) = songs ++ [song] ∧ getSongs songs = songs := ⟨rfl, rfl⟩

/-- C05, whole histories: any sequence of edits that avoids `RemoveSong(len)` runs without crash and ends in the
list the plain specification ends in. -/
inductive Edit where
  | add (s : String)
  | insert (s : String) (i : Int)
  | remove (i : Int)

/-- The model's effect of an edit on the songs. -/
def applyEdit (songs : List String) : Edit → Res (List String)
  | .add s => .ok (addSong songs s)
  | .insert s i => insertSong songs s i
  | .remove i => (removeSong songs i).map Prod.snd

/-- Specification of an edit: put at / erase at the clipped position. -/
def specEdit (songs : List String) : Edit → List String
  | .add s => songs.insertIdx songs.length s
  | .insert s i => songs.insertIdx (clip i songs.length) s
  | .remove i => songs.eraseIdx (clip i (songs.length - 1))

/-- An edit that hits the crash of `C05_remove_at_length_panics`. -/
def crashes (songs : List String) : Edit → Prop
  | .remove i => songs ≠ [] ∧ i = songs.length
  | _ => False

theorem insertIdx_take_drop {α : Type} (l : List α) (i : Nat) (v : α) (h : i ≤ l.length) :
    l.insertIdx i v = l.take i ++ v :: l.drop i := by
  induction l generalizing i with
  | nil => have : i = 0 := by simpa using h
           subst this; rfl
  | cons a l ih =>
    cases i with
    | zero => rfl
    | succ i => simp at h; simp [ih i h]

theorem applyEdit_spec (songs : List String) (e : Edit) (h : ¬ crashes songs e) :
    applyEdit songs e = .ok (specEdit songs e) := by
  cases e with
  | add s =>
    simp [applyEdit, addSong, specEdit, insertIdx_take_drop]
  | insert s i =>
    have : clip i songs.length ≤ songs.length := by unfold clip; omega
    simp [applyEdit, specEdit, C05_insert, insertIdx_take_drop _ _ _ this]
  | remove i =>
    simp only [applyEdit, specEdit, crashes] at *
    by_cases hs : songs = []
    · subst hs; rfl
    · have hi : i ≠ songs.length := fun hi => h ⟨hs, hi⟩
      have := (C05_remove_partial songs i (Or.inr hi)).2 hs
      simp only at this
      rw [this]
      simp [Res.map, List.eraseIdx_eq_take_drop_succ]

/-- Run a history of edits. -/
def applyEdits (songs : List String) : List Edit → Res (List String)
  | [] => .ok songs
  | e :: es => (applyEdit songs e).bind fun s => applyEdits s es

/-- No edit of the history hits the crash, judged on the specification's lists. -/
def noCrash (songs : List String) : List Edit → Prop
  | [] => True
  | e :: es => ¬ crashes songs e ∧ noCrash (specEdit songs e) es

theorem C05_history_partial (es : List Edit) (songs : List String) (h : noCrash songs es) :
    applyEdits songs es = .ok (es.foldl specEdit songs) := by
  induction es generalizing songs with
  | nil => rfl
  | cons e es ih =>
    simp only [applyEdits, applyEdit_spec songs e h.1, Res.bind, List.foldl_cons]
    exact ih _ h.2

example : noCrash ["a"] [.insert "b" (-3), .add "c", .insert "d" 1, .remove 7, .remove 2] := by
  simp [noCrash, crashes, specEdit, clip]
example : applyEdits ["a"] [.insert "b" (-3), .add "c", .insert "d" 1, .remove 7, .remove 2] = .ok ["b", "d"] := by
  decide
example : removeSong ["a", "b"] 2 = .panic := by decide
example : removeSong ["a", "b"] 3 = .ok ("b", ["a"]) := by decide

end MS.Playlist
