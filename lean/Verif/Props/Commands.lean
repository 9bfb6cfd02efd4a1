import Verif.Model.Commands
import Verif.Props.PlaylistEdit
import Verif.Lemmas.Fmt
/-!
# Properties C33, C34, C62, C65: the control commands
-/
set_option linter.unusedSimpArgs false
namespace MS.Commands
open MS.Playlist (clip)

theorem text_ne_usage {c c' : Ctl} {t : List Char} : Run.done c (.text t) ≠ .done c' .usage := by simp

/-! ## C33: rejected commands -/

/-- Specification: the argument lists each command rejects. -/
def Rejects (e : Ext) : Name → List String → Prop
  | .queue, args => args = []
  | .remove, args => (args.head?.bind e.atoi) = none
  | .jump, args => (args.head?.bind e.atoi) = none
  | .volume, args => (args.head?.bind e.parseFloat) = none
  | _, _ => False

theorem parseInt_eq (e : Ext) (args : List String) :
    parseIntParam e args 0 = match args.head?.bind e.atoi with | none => (0, false) | some v => (v, true) := by
  cases args with
  | nil => rfl
  | cons a l => simp only [parseIntParam, List.getElem?_cons_zero, List.head?_cons, Option.bind_some]; cases e.atoi a <;> rfl

theorem parseFloat_eq (e : Ext) (args : List String) :
    parseFloatParam e args 0 = match args.head?.bind e.parseFloat with | none => (0, false) | some v => (v, true) := by
  cases args with
  | nil => rfl
  | cons a l =>
    simp only [parseFloatParam, List.getElem?_cons_zero, List.head?_cons, Option.bind_some]; cases e.parseFloat a <;> rfl

/-- A command prints its usage exactly on the argument lists above, whatever the state. -/
theorem C33_rejected_iff (e : Ext) (n : Name) (args : List String) (c : Ctl) :
    (∃ c', exec e n args c = .done c' .usage) ↔ Rejects e n args := by
  cases n with
  | queue =>
    cases args with
    | nil => simp [exec, queue, parseStringParam, Rejects]
    | cons a l =>
      simp only [exec, queue, parseStringParam, List.getElem?_cons_zero, Rejects, reduceCtorEq, iff_false]
      rintro ⟨c', h⟩
      cases hg : e.glob a with
      | error t => simp [hg] at h
      | ok songs =>
        simp only [hg] at h
        split at h
        · simp at h
        · split at h <;> simp at h
  | playlist => exact ⟨fun ⟨_, h⟩ => text_ne_usage h, False.elim⟩
  | remove =>
    simp only [exec, remove, parseInt_eq, Rejects]
    cases hb : args.head?.bind e.atoi with
    | none => simp
    | some v =>
      simp only [reduceCtorEq, iff_false]
      rintro ⟨c', h⟩
      split at h <;> simp at h
  | jump =>
    simp only [exec, jump, parseInt_eq, Rejects]
    cases hb : args.head?.bind e.atoi with
    | none => simp
    | some v =>
      simp only [reduceCtorEq, iff_false]
      rintro ⟨c', h⟩
      split at h <;> simp at h
  | volume =>
    simp only [exec, volume, parseFloat_eq, Rejects]
    cases hb : args.head?.bind e.parseFloat with
    | none => simp
    | some v =>
      simp only [Bool.not_true, Bool.false_eq_true, if_false, reduceCtorEq, iff_false]
      rintro ⟨c', h⟩
      split at h <;> simp at h
  | pause => simp [exec, setPlaying, Rejects]
  | resume => simp [exec, setPlaying, Rejects]

/-- C33 for every command but `volume`: if the usage is printed, nothing has changed and nothing was sent. -/
theorem C33_rejected_unchanged_partial (e : Ext) (n : Name) (args : List String) (c c' : Ctl) (hn : n ≠ .volume)
    (h : exec e n args c = .done c' .usage) : c' = c := by
  have hr := (C33_rejected_iff e n args c).1 ⟨c', h⟩
  cases n with
  | queue =>
    simp only [Rejects] at hr
    subst hr
    simp [exec, queue, parseStringParam] at h
    exact h.symm
  | remove =>
    simp only [Rejects] at hr
    simp [exec, remove, parseInt_eq, hr] at h
    exact h.symm
  | jump =>
    simp only [Rejects] at hr
    simp [exec, jump, parseInt_eq, hr] at h
    exact h.symm
  | volume => exact absurd rfl hn
  | playlist => exact hr.elim
  | pause => exact hr.elim
  | resume => exact hr.elim

/-- C33 is false for `volume`: a rejected `volume` command sends nothing and leaves the rest, but sets the server's
volume (sent to the clients that subscribe from then on, C30) to 0. -/
theorem C33_volume_rejected_sets_zero (e : Ext) (args : List String) (c : Ctl) (h : Rejects e .volume args) :
    exec e .volume args c = .done { c with volume := 0 } .usage := by
  simp only [Rejects] at h
  simp [exec, volume, parseFloat_eq, h]

/-! ## C34: queue -/

theorem insertAll_append (ss pl : List String) (i : Nat) : insertAll none i ss pl = .ok (pl ++ ss) := by
  induction ss generalizing i pl with
  | nil => simp [insertAll]
  | cons s ss ih => simp [insertAll, Res.bind, Playlist.addSong, ih]

theorem wrap64_id {x : Int} (h1 : -(2 ^ 63) ≤ x) (h2 : x < 2 ^ 63) : wrap64 x = x := by
  unfold wrap64
  rw [Int.bmod_eq_of_le (by omega) (by omega)]

theorem insertAll_insert (p : Int) (hp : 0 ≤ p) (ss : List String) : ∀ (A B C : List String),
    p + B.length + ss.length ≤ 2 ^ 63 → A.length = clip p (A.length + C.length) →
    insertAll (some p) B.length ss (A ++ B ++ C) = .ok (A ++ (B ++ ss) ++ C) := by
  induction ss with
  | nil => intro A B C _ _; simp [insertAll]
  | cons s ss ih =>
    intro A B C h hA
    simp only [insertAll]
    rw [wrap64_id (by omega) (by simp at h; omega), Playlist.C05_insert]
    simp only [Res.bind]
    have hc : clip (p + B.length) (A ++ B ++ C).length = (A ++ B).length := by
      unfold clip at hA ⊢
      simp only [List.length_append]
      omega
    rw [hc, List.take_left, List.drop_left]
    have := ih A (B ++ [s]) C (by simp at h ⊢; omega) hA
    simp only [List.length_append, List.length_cons, List.length_nil, Nat.zero_add] at this
    rw [show A ++ B ++ s :: C = A ++ (B ++ [s]) ++ C by simp, this]
    simp

/-- C34, without a position (or with one that is no number): all matches are appended in listing order. -/
theorem C34_append (e : Ext) (pattern : String) (rest matched : List String) (c : Ctl)
    (hr : (rest.head?.bind e.atoi) = none) (hg : e.glob pattern = .ok matched) (hm : matched ≠ []) :
    ∃ t, exec e .queue (pattern :: rest) c = .done { c with songs := c.songs ++ matched } (.text t) := by
  have hi : parseIntParam e (pattern :: rest) 1 = (0, false) := by
    have := parseInt_eq e rest
    rw [hr] at this
    simpa [parseIntParam] using this
  have hl : ¬ matched.length = 0 := by cases matched <;> simp at hm ⊢
  simp only [exec, queue, parseStringParam, List.getElem?_cons_zero, hg, hl, if_false, hi, insertAll_append]
  exact ⟨_, rfl⟩

/-- C34, with a position `p` from 0 on: the matches are inserted contiguously, in listing order, at `p` clipped to the
playlist, provided the position of the last one does not exceed the largest integer. -/
theorem C34_insert_partial (e : Ext) (pattern pos : String) (rest matched : List String) (c : Ctl) (p : Int)
    (ha : e.atoi pos = some p) (h0 : 0 ≤ p) (h1 : p + matched.length ≤ 2 ^ 63)
    (hg : e.glob pattern = .ok matched) (hm : matched ≠ []) :
    ∃ t, exec e .queue (pattern :: pos :: rest) c =
      .done { c with songs := c.songs.take (clip p c.songs.length) ++ matched ++ c.songs.drop (clip p c.songs.length) }
        (.text t) := by
  have hi : parseIntParam e (pattern :: pos :: rest) 1 = (p, true) := by simp [parseIntParam, ha]
  have hl : ¬ matched.length = 0 := by cases matched <;> simp at hm ⊢
  have := insertAll_insert p h0 matched (c.songs.take (clip p c.songs.length)) [] (c.songs.drop (clip p c.songs.length))
    (by simpa using h1) (by simp [clip]; omega)
  simp only [List.append_nil, List.nil_append, List.take_append_drop, List.length_nil] at this
  simp only [exec, queue, parseStringParam, List.getElem?_cons_zero, hg, hl, if_false, hi, this]
  exact ⟨_, rfl⟩

theorem insertAll_negative (p : Int) (ss : List String) : ∀ (i : Nat) (pl : List String), -(2 ^ 63) ≤ p →
    p + i + ss.length ≤ 1 → insertAll (some p) i ss pl = .ok (ss.reverse ++ pl) := by
  induction ss with
  | nil => intro i pl _ _; simp [insertAll]
  | cons s ss ih =>
    intro i pl h1 h
    simp only [List.length_cons] at h
    simp only [insertAll]
    rw [wrap64_id (by omega) (by omega), Playlist.C05_insert]
    have hc : clip (p + i) pl.length = 0 := by unfold clip; omega
    rw [hc]
    simp only [Res.bind, List.take_zero, List.nil_append, List.drop_zero]
    rw [ih (i + 1) _ h1 (by omega)]
    simp

theorem res_bind_assoc {α β γ : Type} (r : Res α) (f : α → Res β) (g : β → Res γ) :
    (r.bind f).bind g = r.bind (fun x => (f x).bind g) := by cases r <;> rfl

theorem insertAll_split (pos : Option Int) (a b : List String) : ∀ (i : Nat) (pl : List String),
    insertAll pos i (a ++ b) pl = (insertAll pos i a pl).bind (insertAll pos (i + a.length) b) := by
  induction a with
  | nil => intro i pl; simp [insertAll, Res.bind]
  | cons s a ih =>
    intro i pl
    have hn : i + 1 + a.length = i + (s :: a).length := by simp; omega
    simp only [List.cons_append, insertAll, ← hn]
    rw [res_bind_assoc]
    congr 1
    funext pl'
    exact ih _ _

/-- Songs inserted at increasing positions from the front on push what is there to the right. -/
theorem insertAll_from_zero (p : Int) (ss : List String) (i : Nat) (hp : p + i = 0) (pl : List String)
    (h : (ss.length : Int) ≤ 2 ^ 63) : insertAll (some p) i ss pl = .ok (ss ++ pl) := by
  have gen : ∀ (ss B : List String) (j : Nat), p + j = B.length → (B.length : Int) + ss.length ≤ 2 ^ 63 →
      insertAll (some p) j ss (B ++ pl) = .ok (B ++ ss ++ pl) := by
    intro ss
    induction ss with
    | nil => intro B j _ _; simp [insertAll]
    | cons s ss ih =>
      intro B j hj hl
      simp only [List.length_cons] at hl
      simp only [insertAll]
      rw [wrap64_id (by omega) (by omega), Playlist.C05_insert]
      have hc : clip (p + j) (B ++ pl).length = B.length := by simp only [clip, List.length_append]; omega
      rw [hc, List.take_left, List.drop_left]
      have := ih (B ++ [s]) (j + 1) (by simp; omega) (by simp; omega)
      simp only [Res.bind]
      rw [show B ++ s :: pl = (B ++ [s]) ++ pl by simp, this]
      simp
  have := gen ss [] i (by simpa using hp) (by simpa using h)
  simpa using this

/-- C34 is false for negative positions `-k` with more than one match. What happens exactly: the first `k` matches end up
in reverse order, and the others stand before them in listing order. -/
theorem C34_negative_exact (e : Ext) (pattern pos : String) (rest matched : List String) (c : Ctl) (k : Nat)
    (ha : e.atoi pos = some (-(k : Int))) (h0 : (k : Int) ≤ 2 ^ 63) (h1 : (matched.length : Int) ≤ 2 ^ 63)
    (hg : e.glob pattern = .ok matched) (hm : matched ≠ []) :
    ∃ t, exec e .queue (pattern :: pos :: rest) c =
      .done { c with songs := matched.drop k ++ (matched.take k).reverse ++ c.songs } (.text t) := by
  have hi : parseIntParam e (pattern :: pos :: rest) 1 = (-(k : Int), true) := by simp [parseIntParam, ha]
  have hl : ¬ matched.length = 0 := by cases matched <;> simp at hm ⊢
  have : insertAll (some (-(k : Int))) 0 matched c.songs = .ok (matched.drop k ++ (matched.take k).reverse ++ c.songs) := by
    rw [← List.take_append_drop k matched, insertAll_split, insertAll_negative _ _ _ _ (by omega) (by simp; omega)]
    simp only [Res.bind, List.take_append_drop, Nat.zero_add]
    by_cases hk : k ≤ matched.length
    · rw [insertAll_from_zero _ _ _ (by simp; omega) _ (by simp; omega), List.append_assoc]
    · rw [List.drop_eq_nil_of_le (by omega)]
      simp [insertAll]
  simp only [exec, queue, parseStringParam, List.getElem?_cons_zero, hg, hl, if_false, hi, this]
  exact ⟨_, rfl⟩

theorem wrap64_over {x : Int} (h1 : 2 ^ 63 ≤ x) (h2 : x < 2 ^ 64) : wrap64 x < 0 := by
  have : wrap64 x = x - 2 ^ 64 := by
    unfold wrap64
    rw [← Int.bmod_eq_of_le (n := x - 2 ^ 64) (m := 18446744073709551616) (by omega) (by omega)]
    rw [show (2 : Int) ^ 64 = ((18446744073709551616 : Nat) : Int) by decide, Int.sub_bmod_right]
  omega

theorem insertAll_over (p : Int) (ss : List String) : ∀ (i : Nat) (pl : List String), 2 ^ 63 ≤ p + i →
    p + i + ss.length ≤ 2 ^ 64 → insertAll (some p) i ss pl = .ok (ss.reverse ++ pl) := by
  induction ss with
  | nil => intro i pl _ _; simp [insertAll]
  | cons s ss ih =>
    intro i pl h1 h2
    simp only [List.length_cons] at h2
    simp only [insertAll]
    have := wrap64_over h1 (by omega)
    rw [Playlist.C05_insert]
    have hc : clip (wrap64 (p + i)) pl.length = 0 := by unfold clip; omega
    rw [hc]
    simp only [Res.bind, List.take_zero, List.nil_append, List.drop_zero]
    rw [ih (i + 1) _ (by omega) (by omega)]
    simp

/-- C34 is false at the largest integers: of the matches for a position `2^63 - k` beyond the playlist the first `k` are
appended, the others are put at the front in reverse order. -/
theorem C34_overflow_exact (e : Ext) (pattern pos : String) (rest matched : List String) (c : Ctl) (p : Int) (k : Nat)
    (ha : e.atoi pos = some p) (hp : p + k = 2 ^ 63) (h0 : (c.songs.length : Int) ≤ p) (hk : k ≤ matched.length)
    (h1 : p + matched.length ≤ 2 ^ 64) (hg : e.glob pattern = .ok matched) (hm : matched ≠ []) :
    ∃ t, exec e .queue (pattern :: pos :: rest) c =
      .done { c with songs := (matched.drop k).reverse ++ c.songs ++ matched.take k } (.text t) := by
  have hi : parseIntParam e (pattern :: pos :: rest) 1 = (p, true) := by simp [parseIntParam, ha]
  have hl : ¬ matched.length = 0 := by cases matched <;> simp at hm ⊢
  have : insertAll (some p) 0 matched c.songs = .ok ((matched.drop k).reverse ++ c.songs ++ matched.take k) := by
    have hc := insertAll_insert p (by omega) (matched.take k) c.songs [] [] (by simp; omega) (by simp [clip]; omega)
    simp only [List.append_nil, List.nil_append, List.length_nil] at hc
    rw [show insertAll (some p) 0 matched c.songs = insertAll (some p) 0 (matched.take k ++ matched.drop k) c.songs by
      rw [List.take_append_drop], insertAll_split, hc]
    simp only [Res.bind, Nat.zero_add]
    rw [insertAll_over _ _ _ _ (by simp; omega) (by simp; omega), List.append_assoc]
  simp only [exec, queue, parseStringParam, List.getElem?_cons_zero, hg, hl, if_false, hi, this]
  exact ⟨_, rfl⟩

/-- If nothing matches, or the pattern is malformed, nothing changes. -/
theorem C34_no_match (e : Ext) (pattern : String) (rest : List String) (c : Ctl)
    (hg : e.glob pattern = .ok [] ∨ ∃ t, e.glob pattern = .error t) :
    ∃ t, exec e .queue (pattern :: rest) c = .done c (.text t) := by
  rcases hg with h | ⟨t, h⟩ <;>
    simp only [exec, queue, parseStringParam, List.getElem?_cons_zero, h, List.length_nil, if_true] <;> exact ⟨_, rfl⟩

/-! ## C62: the playlist listing -/

/-- Specification: joining lines with newlines. -/
def unlines : List (List Char) → List Char
  | [] => []
  | [l] => l
  | l :: m :: r => l ++ '\n' :: unlines (m :: r)

theorem intercalate_unlines (ls : List (List Char)) : ['\n'].intercalate ls = unlines ls := by
  induction ls with
  | nil => rfl
  | cons a l ih =>
    cases l with
    | nil => simp [List.intercalate, List.intersperse, unlines]
    | cons b r =>
      rw [unlines, ← ih]
      simp [List.intercalate, List.intersperse]

/-- C62: `playlist` changes nothing and prints the play state, then "Empty" or a line for each song, in order: its
position in decimal digits, all positions with the same number of digits, the last one without a leading zero to fill
it up, and its name; then the current song. -/
theorem C62_listing (e : Ext) (args : List String) (c : Ctl) : ∃ (lines : List (List Char)) (numbers : List (List Char)),
    exec e .playlist args c = .done c (.text (
      (if c.playing then "Current Playlist (Playing): ".toList else "Current Playlist (Paused): ".toList) ++
      (if c.songs = [] then "Empty".toList else '\n' :: unlines lines) ++ "\nCurrent Song: ".toList ++
      (if c.current = "" then "None".toList else c.current.toList))) ∧
    lines.length = c.songs.length ∧ numbers.length = c.songs.length ∧
    (∀ i (h : i < c.songs.length), ∃ num, numbers[i]? = some num ∧
      lines[i]? = some ("  [".toList ++ num ++ "] ".toList ++ (c.songs[i]).toList) ∧
      Fmt.value num = i ∧ (∀ d ∈ num, 48 ≤ d.toNat ∧ d.toNat ≤ 57) ∧
      num.length = (Fmt.dec (c.songs.length - 1)).length) ∧
    (c.songs ≠ [] → numbers[c.songs.length - 1]? = some (Fmt.dec (c.songs.length - 1))) := by
  refine ⟨entries c.songs, (List.range c.songs.length).map (Fmt.dec0 (Fmt.dec (c.songs.length - 1)).length), ?_, ?_, ?_, ?_, ?_⟩
  · simp only [exec, playlist]
    congr 2
    have h1 : ("Current Playlist (".toList ++ (if c.playing then "Playing".toList else "Paused".toList) ++ "): ".toList) =
        if c.playing then "Current Playlist (Playing): ".toList else "Current Playlist (Paused): ".toList := by
      cases c.playing <;> simp
    rw [h1]
    have h2 : (if 0 < (entries c.songs).length then '\n' :: ['\n'].intercalate (entries c.songs) else "Empty".toList) =
        if c.songs = [] then "Empty".toList else '\n' :: unlines (entries c.songs) := by
      rw [intercalate_unlines]
      cases hs : c.songs with
      | nil => simp [entries]
      | cons a l => simp [entries]
    rw [h2]
  · simp [entries]
  · simp
  · intro i h
    refine ⟨Fmt.dec0 (Fmt.dec (c.songs.length - 1)).length i, ?_, ?_, Fmt.value_dec0 _ _, Fmt.dec0_digits _ _, ?_⟩
    · simp [h]
    · simp [entries, h]
    · rw [Fmt.dec0_length]
      have := Fmt.dec_length_mono (m := i) (n := c.songs.length - 1) (by omega)
      omega
  · intro h
    have : 0 < c.songs.length := List.length_pos_iff.2 h
    rw [List.getElem?_map, List.getElem?_range (by omega)]
    simp [Fmt.dec0]

/-! ## C65: every command has only its own effect -/

/-- C65: what each command may change, on every argument list: `queue` and `remove` only the playlist, `jump` only
position and jump requests, `volume` only the volume and the messages sent, `pause`/`resume` only the play state (which
is then as asked), `playlist` nothing. Only `remove` can crash, only `jump` can block. -/
theorem C65_effects (e : Ext) (n : Name) (args : List String) (c : Ctl) :
    match n, exec e n args c with
    | .queue, .done c' _ => c' = { c with songs := c'.songs }
    | .remove, .done c' _ => c' = { c with songs := c'.songs }
    | .remove, .panic => ∃ p, args.head?.bind e.atoi = some p ∧ Playlist.removeSong c.songs p = .panic
    | .jump, .done c' (.text _) => ∃ p, args.head?.bind e.atoi = some p ∧ c' = { c with position := p, tokens := c.tokens + 1 }
    | .jump, .done c' .usage => c' = c
    | .jump, .blocked c' => 2 ≤ c.tokens ∧ ∃ p, args.head?.bind e.atoi = some p ∧ c' = { c with position := p }
    | .volume, .done c' (.text _) =>
      ∃ v, args.head?.bind e.parseFloat = some v ∧ c' = { c with volume := v, sent := c.sent ++ [v] }
    | .volume, .done c' .usage => c' = { c with volume := 0 }
    | .pause, .done c' _ => c' = { c with playing := false }
    | .resume, .done c' _ => c' = { c with playing := true }
    | .playlist, .done c' _ => c' = c
    | _, _ => False := by
  cases n with
  | queue =>
    simp only [exec, queue]
    cases args with
    | nil => simp [parseStringParam]
    | cons a l =>
      simp only [parseStringParam, List.getElem?_cons_zero]
      cases hg : e.glob a with
      | error t => simp
      | ok songs =>
        simp only
        by_cases hl : songs.length = 0
        · simp [hl]
        · simp only [hl, if_false]
          have hok : ∀ pos i ss pl, ∃ r, insertAll pos i ss pl = .ok r := by
            intro pos i ss
            induction ss generalizing i with
            | nil => intro pl; exact ⟨_, rfl⟩
            | cons s ss ih =>
              intro pl
              simp only [insertAll]
              cases pos with
              | none => exact ih _ _
              | some p => simp only [Playlist.C05_insert, Res.bind]; exact ih _ _
          rcases parseIntParam e (a :: l) 1 with ⟨p, ok⟩
          cases ok with
          | true =>
            obtain ⟨r, hr⟩ := hok (some p) 0 songs c.songs
            simp only [hr]
          | false =>
            obtain ⟨r, hr⟩ := hok none 0 songs c.songs
            simp only [hr]
  | playlist => exact rfl
  | remove =>
    simp only [exec, remove, parseInt_eq]
    cases hb : args.head?.bind e.atoi with
    | none => simp
    | some p =>
      simp only
      cases hr : Playlist.removeSong c.songs p with
      | panic => simp [hr]
      | ok r => simp
  | jump =>
    simp only [exec, jump, parseInt_eq]
    cases hb : args.head?.bind e.atoi with
    | none => simp
    | some p =>
      simp only
      by_cases ht : c.tokens < 2
      · simp [ht]
      · simp [ht, Nat.le_of_not_lt ht]
  | volume =>
    simp only [exec, volume, parseFloat_eq]
    cases hb : args.head?.bind e.parseFloat with
    | none => simp
    | some v =>
      simp only [Bool.not_true, Bool.false_eq_true, if_false]
      cases e.sendError <;> simp
  | pause => simp [exec, setPlaying]
  | resume => simp [exec, setPlaying]

section examples
/-- A library behaviour for the examples. -/
def ext0 : Ext :=
  { atoi := fun s => if s = "1" then some 1 else if s = "-5" then some (-5) else if s = "big" then some (2 ^ 63 - 1) else none
    parseFloat := fun s => if s = "0.5" then some 0x3FE0000000000000 else none
    glob := fun s => if s = "*" then .ok ["a.mp3", "b.mp3"] else .ok []
    fmtFloat := fun _ => ['?'], sendError := none }
def ctl0 : Ctl := ⟨["x.mp3", "y.mp3"], 0, 0, true, "x.mp3", 0x3FB999999999999A, []⟩

/-- `remove`, `jump x`, `volume abc` and `queue` are rejected. -/
example : Rejects ext0 .remove [] ∧ Rejects ext0 .jump ["x"] ∧ Rejects ext0 .volume ["abc"] ∧ Rejects ext0 .queue [] := by
  simp [Rejects, ext0]
/-- C33 is false: `volume abc` sets the volume to 0. -/
example : ∃ c', exec ext0 .volume ["abc"] ctl0 = .done c' .usage ∧ c'.volume = 0 ∧ ctl0.volume ≠ 0 :=
  ⟨_, C33_volume_rejected_sets_zero ext0 ["abc"] ctl0 (by simp [Rejects, ext0]), rfl, by decide⟩
/-- `queue * 1` inserts both songs after the first. -/
example : ∃ t, exec ext0 .queue ["*", "1"] ctl0 =
    .done { ctl0 with songs := ["x.mp3", "a.mp3", "b.mp3", "y.mp3"] } (.text t) :=
  C34_insert_partial ext0 "*" "1" [] ["a.mp3", "b.mp3"] ctl0 1 (by simp [ext0]) (by decide) (by decide) (by simp [ext0]) (by simp)
example : ∃ t, exec ext0 .queue ["*"] ctl0 = .done { ctl0 with songs := ["x.mp3", "y.mp3", "a.mp3", "b.mp3"] } (.text t) :=
  C34_append ext0 "*" [] ["a.mp3", "b.mp3"] ctl0 (by simp) (by simp [ext0]) (by simp)
example : ∃ t, exec ext0 .queue ["*", "-5"] ctl0 = .done { ctl0 with songs := ["b.mp3", "a.mp3", "x.mp3", "y.mp3"] } (.text t) :=
  C34_negative_exact ext0 "*" "-5" [] ["a.mp3", "b.mp3"] ctl0 5 (by simp [ext0]) (by decide) (by decide)
    (by simp [ext0]) (by simp)
/-- Four matches at position -1: neither the listing order nor its reverse. -/
example (e : Ext) (pos : String) (ha : e.atoi pos = some (-1)) (hg : e.glob "*" = .ok ["a", "b", "c", "d"]) :
    ∃ t, exec e .queue ["*", pos] ctl0 = .done { ctl0 with songs := ["b", "c", "d", "a", "x.mp3", "y.mp3"] } (.text t) :=
  C34_negative_exact e "*" pos [] _ ctl0 1 (by simpa using ha) (by decide) (by decide) hg (by simp)
example : ∃ t, exec ext0 .queue ["*", "big"] ctl0 = .done { ctl0 with songs := ["b.mp3", "x.mp3", "y.mp3", "a.mp3"] } (.text t) :=
  C34_overflow_exact ext0 "*" "big" [] ["a.mp3", "b.mp3"] ctl0 (2 ^ 63 - 1) 1 (by simp [ext0]) (by decide) (by decide)
    (by decide) (by decide) (by simp [ext0]) (by simp)
/-- Twelve songs: positions have two digits. -/
example : Fmt.dec0 (Fmt.dec (12 - 1)).length 3 = ['0', '3'] := by simp [Fmt.dec0, Fmt.dec, Fmt.digit]
end examples

end MS.Commands
