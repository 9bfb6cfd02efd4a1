import Verif.Props.Commands
/-!
# Property C102: the replies of the control commands say what happened
-/
set_option linter.unusedSimpArgs false
namespace MS.Commands
open MS.Playlist (clip)

/-! ## Specification -/

/-- `t` is the whole number `i` in decimal digits, with a minus sign iff it is negative. -/
def Denotes (t : List Char) (i : Int) : Prop :=
  ∃ ds, t = (if i < 0 then "-".toList else []) ++ ds ∧ ds ≠ [] ∧ (∀ d ∈ ds, '0' ≤ d ∧ d ≤ '9') ∧ (Fmt.value ds : Int) = i.natAbs

/-- Names with a comma and a space between them. -/
def commaList : List String → List Char
  | [] => []
  | [s] => s.toList
  | s :: r :: rs => s.toList ++ ", ".toList ++ commaList (r :: rs)

/-! ## Lemmas -/

theorem dec_denotes (n : Nat) : Denotes (Fmt.dec n) n := by
  refine ⟨Fmt.dec n, by rw [if_neg (by omega)]; rfl, ?_, ?_, ?_⟩
  · rw [Fmt.dec]; split <;> simp
  · intro d hd
    have := Fmt.dec_digits n d hd
    have h1 : ('0' : Char).toNat = 48 := rfl
    have h2 : ('9' : Char).toNat = 57 := rfl
    exact ⟨by show '0'.toNat ≤ d.toNat; omega, by show d.toNat ≤ '9'.toNat; omega⟩
  · rw [Fmt.value_dec]; omega

theorem decInt_denotes (i : Int) : Denotes (decInt i) i := by
  obtain ⟨ds, h1, h2, h3, h4⟩ := dec_denotes i.natAbs
  rw [if_neg (by omega)] at h1
  unfold decInt
  by_cases hi : i < 0
  · rw [if_pos hi]
    exact ⟨ds, by rw [if_pos hi, h1]; rfl, h2, h3, by rw [h4]; simp⟩
  · rw [if_neg hi]
    exact ⟨ds, by rw [if_neg hi, h1], h2, h3, by rw [h4]; simp⟩

theorem intercalate_comma (ss : List String) : ", ".toList.intercalate (ss.map String.toList) = commaList ss := by
  induction ss with
  | nil => rfl
  | cons a l ih =>
    cases l with
    | nil => simp [List.intercalate, List.intersperse, commaList]
    | cons b r =>
      rw [commaList, ← ih]
      simp [List.intercalate, List.intersperse]

theorem insertAll_perm (pos : Option Int) (ss : List String) : ∀ (i : Nat) (pl : List String),
    ∃ r, insertAll pos i ss pl = .ok r ∧ r.Perm (pl ++ ss) := by
  induction ss with
  | nil => intro i pl; exact ⟨pl, rfl, by simp⟩
  | cons s ss ih =>
    intro i pl
    simp only [insertAll]
    cases pos with
    | none =>
      simp only [Res.bind, Playlist.addSong]
      obtain ⟨r, h1, h2⟩ := ih (i + 1) (pl ++ [s])
      exact ⟨r, h1, by simpa using h2⟩
    | some p =>
      simp only [Playlist.C05_insert, Res.bind]
      obtain ⟨r, h1, h2⟩ := ih (i + 1) (pl.take (clip (wrap64 (p + i)) pl.length) ++ s :: pl.drop (clip (wrap64 (p + i)) pl.length))
      refine ⟨r, h1, h2.trans ?_⟩
      have hp : (pl.take (clip (wrap64 (p + i)) pl.length) ++ s :: pl.drop (clip (wrap64 (p + i)) pl.length)).Perm (pl ++ [s]) := by
        refine List.perm_middle.trans ?_
        rw [List.take_append_drop]
        exact (List.perm_append_singleton s pl).symm
      simpa using hp.append_right ss

/-! ## C102 -/

/-- C102, `queue`: with an invalid pattern or one that matches nothing the reply says so, with the pattern or the error,
and nothing has changed. Otherwise the reply is the number and the names of all songs matched, and exactly these have been
added to the playlist, each as often as named, whatever the position given. -/
theorem C102_queue (e : Ext) (pattern : String) (rest : List String) (c : Ctl) :
    (∀ t, e.glob pattern = .error t →
      exec e .queue (pattern :: rest) c = .done c (.text ("glob pattern is invalid: ".toList ++ t))) ∧
    (e.glob pattern = .ok [] →
      exec e .queue (pattern :: rest) c = .done c (.text ("no song matches the glob pattern ".toList ++ pattern.toList))) ∧
    ∀ matched, e.glob pattern = .ok matched → matched ≠ [] → ∃ c' num,
      exec e .queue (pattern :: rest) c =
        .done c' (.text (num ++ " song(s) added to playlist: ".toList ++ commaList matched)) ∧
      Denotes num matched.length ∧ c'.songs.Perm (c.songs ++ matched) := by
  refine ⟨fun t h => ?_, fun h => ?_, fun matched h hm => ?_⟩
  · simp only [exec, queue, parseStringParam, List.getElem?_cons_zero, h]
  · simp only [exec, queue, parseStringParam, List.getElem?_cons_zero, h, List.length_nil, if_true]
  · have hl : ¬ matched.length = 0 := by cases matched <;> simp at hm ⊢
    simp only [exec, queue, parseStringParam, List.getElem?_cons_zero, h, hl, if_false]
    rcases parseIntParam e (pattern :: rest) 1 with ⟨p, ok⟩
    cases ok with
    | true =>
      obtain ⟨r, h1, h2⟩ := insertAll_perm (some p) matched 0 c.songs
      simp only [h1]
      exact ⟨_, Fmt.dec matched.length, by rw [intercalate_comma], dec_denotes _, h2⟩
    | false =>
      obtain ⟨r, h1, h2⟩ := insertAll_perm none matched 0 c.songs
      simp only [h1]
      exact ⟨_, Fmt.dec matched.length, by rw [intercalate_comma], dec_denotes _, h2⟩

/-- C102, `remove` of a position in the playlist: the reply has the name of the song there and the position, and this song
has been taken out. -/
theorem C102_remove_partial (e : Ext) (a : String) (rest : List String) (c : Ctl) (p : Nat) (ha : e.atoi a = some (p : Int))
    (hp : p < c.songs.length) : ∃ num,
    exec e .remove (a :: rest) c = .done { c with songs := c.songs.eraseIdx p }
      (.text ("removed song ".toList ++ (c.songs[p]).toList ++ " at position ".toList ++ num ++ " from playlist".toList)) ∧
    Denotes num p := by
  have hne : c.songs ≠ [] := by intro h; rw [h] at hp; simp at hp
  have hclip : clip p (c.songs.length - 1) = p := by unfold clip; omega
  have h := (Playlist.C05_remove_partial c.songs p (.inr (by omega))).2 hne
  simp only [hclip] at h
  refine ⟨decInt p, ?_, decInt_denotes p⟩
  have he : c.songs.take p ++ c.songs.drop (p + 1) = c.songs.eraseIdx p := (List.eraseIdx_eq_take_drop_succ _ _).symm
  rw [he] at h
  simp only [exec, remove, parseInt_eq, List.head?_cons, Option.bind_some, ha, h]

/-- C102 is false for `remove` elsewhere: with an empty playlist, the reply says that a song without a name has been removed
although nothing has; below 0 it names a position that does not exist while the first song has been removed; beyond
the end likewise with the last one. -/
theorem C102_remove_elsewhere (e : Ext) (a : String) (rest : List String) (c : Ctl) (p : Int) (ha : e.atoi a = some p) :
    ∃ num, Denotes num p ∧
    (c.songs = [] → exec e .remove (a :: rest) c =
      .done c (.text ("removed song  at position ".toList ++ num ++ " from playlist".toList))) ∧
    (∀ s r, c.songs = s :: r → p < 0 → exec e .remove (a :: rest) c = .done { c with songs := r }
      (.text ("removed song ".toList ++ s.toList ++ " at position ".toList ++ num ++ " from playlist".toList))) ∧
    (∀ r s, c.songs = r ++ [s] → (c.songs.length : Int) < p → exec e .remove (a :: rest) c = .done { c with songs := r }
      (.text ("removed song ".toList ++ s.toList ++ " at position ".toList ++ num ++ " from playlist".toList))) := by
  refine ⟨decInt p, decInt_denotes p, fun h => ?_, fun s r h hp => ?_, fun r s h hp => ?_⟩
  · have h1 := (Playlist.C05_remove_partial c.songs p (.inl h)).1 h
    simp only [exec, remove, parseInt_eq, List.head?_cons, Option.bind_some, ha, h1]
    obtain ⟨songs, position, tokens, playing, current, volume, sent⟩ := c
    subst h
    congr 2
  · have h1 := (Playlist.C05_remove_partial c.songs p (.inr (by omega))).2 (by simp [h])
    have hclip : clip p (c.songs.length - 1) = 0 := by unfold clip; omega
    simp only [hclip] at h1
    simp only [exec, remove, parseInt_eq, List.head?_cons, Option.bind_some, ha, h1]
    simp [h]
  · have hlen : c.songs.length = r.length + 1 := by simp [h]
    have h1 := (Playlist.C05_remove_partial c.songs p (.inr (by omega))).2 (by simp [h])
    have hclip : clip p (c.songs.length - 1) = r.length := by unfold clip; omega
    simp only [hclip] at h1
    simp only [exec, remove, parseInt_eq, List.head?_cons, Option.bind_some, ha, h1]
    simp [h]

/-- C102, `jump`: if it replies at all, the reply has the position asked for, which is then the playlist's position. -/
theorem C102_jump (e : Ext) (a : String) (rest : List String) (c : Ctl) (p : Int) (ha : e.atoi a = some p)
    (ht : c.tokens < 2) : ∃ c' num, exec e .jump (a :: rest) c = .done c' (.text ("jumped to ".toList ++ num)) ∧ Denotes num p ∧
      c'.position = p := by
  refine ⟨{ c with position := p, tokens := c.tokens + 1 }, decInt p, ?_, decInt_denotes p, rfl⟩
  simp only [exec, jump, parseInt_eq, List.head?_cons, Option.bind_some, ha, ht, if_true]

/-- C102, `volume`: the reply has the volume, which has been stored and broadcast, and says whether the broadcast failed.
If it did, the volume stored is still the new one. -/
theorem C102_volume (e : Ext) (a : String) (rest : List String) (c : Ctl) (v : UInt64) (ha : e.parseFloat a = some v) :
    ∃ c', exec e .volume (a :: rest) c = .done c' (.text (match e.sendError with
        | none => "setting volume to ".toList ++ e.fmtFloat v
        | some t => "failed to set volume to ".toList ++ e.fmtFloat v ++ ": ".toList ++ t)) ∧
      c'.volume = v ∧ c'.sent = c.sent ++ [v] := by
  refine ⟨{ c with volume := v, sent := c.sent ++ [v] }, ?_, rfl, rfl⟩
  simp only [exec, volume, parseFloat_eq, List.head?_cons, Option.bind_some, ha, Bool.not_true, Bool.false_eq_true, if_false]
  cases e.sendError <;> rfl

/-- C102, `pause` and `resume`. -/
theorem C102_pause_resume (e : Ext) (args : List String) (c : Ctl) :
    exec e .pause args c = .done { c with playing := false } (.text "playback paused".toList) ∧
    exec e .resume args c = .done { c with playing := true } (.text "playback resumed".toList) := by
  constructor <;> simp [exec, setPlaying]

/-- `remove 1` and `remove -5` of two songs, `queue *`. -/
example : exec ext0 .remove ["1"] ctl0 = .done { ctl0 with songs := ["x.mp3"] }
    (.text "removed song y.mp3 at position 1 from playlist".toList) := by
  simp [exec, remove, parseIntParam, ext0, Playlist.removeSong, Playlist.goGet, Playlist.goCopy, Playlist.goSet, ctl0, Res.map, Res.bind, decInt, Fmt.dec, Fmt.digit]
example : ∃ num, Denotes num (-5) ∧ exec ext0 .remove ["-5"] ctl0 = .done { ctl0 with songs := ["y.mp3"] }
    (.text ("removed song x.mp3 at position ".toList ++ num ++ " from playlist".toList)) := by
  obtain ⟨num, h1, _, h2, _⟩ := C102_remove_elsewhere ext0 "-5" [] ctl0 (-5) (by simp [ext0])
  refine ⟨num, h1, ?_⟩
  rw [h2 "x.mp3" ["y.mp3"] rfl (by decide)]
  simp
example : ∃ c' num, exec ext0 .queue ["*", "1"] ctl0 =
    .done c' (.text (num ++ " song(s) added to playlist: a.mp3, b.mp3".toList)) ∧ Denotes num 2 := by
  obtain ⟨c', num, h1, h2, _⟩ := (C102_queue ext0 "*" ["1"] ctl0).2.2 ["a.mp3", "b.mp3"] (by simp [ext0]) (by simp)
  refine ⟨c', num, ?_, h2⟩
  rw [h1]
  simp [commaList]

end MS.Commands
