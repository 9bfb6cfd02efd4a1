import Verif.Model.SongInfo
import Verif.Props.Wire
/-!
# Property C54: lyrics and metadata reach the infoer unchanged
-/
namespace MS.SongInfo
open MS.Proto MS.Wire

/-- Specification: what the server knows of a song it starts to stream: the decoded file beside it with the additional ending
.json (nothing if there is no such file or it does not decode), and the tags in the song's file. -/
def Known (env : Env) (start : UInt64) (filename : Bytes) (length : Int64) (s : Song) : Prop :=
  s.filename = filename ∧ s.start = start ∧ s.length = length ∧
  ((∃ c, env.file (env.join env.audioDir (filename ++ ascii ".json")) = some c ∧ env.json c = some s.lyrics) ∨
   ((∀ c, env.file (env.join env.audioDir (filename ++ ascii ".json")) = some c → env.json c = none) ∧ s.lyrics = [])) ∧
  ((∃ c, env.file (env.join env.audioDir filename) = some c ∧ env.tags c = some s.tags) ∨
   ((∀ c, env.file (env.join env.audioDir filename) = some c → env.tags c = none) ∧ s.tags = ⟨[], [], []⟩))

/-- Specification: all its texts are valid UTF-8. -/
def Utf8 (s : Song) : Prop :=
  utf8Valid s.filename ∧ (∀ l ∈ s.lyrics, ∀ w ∈ l, utf8Valid w.caption) ∧ utf8Valid s.tags.title ∧ utf8Valid s.tags.artist ∧
  utf8Valid s.tags.album

theorem json_bytes : ascii ".json" = [46, 106, 115, 111, 110] := by rfl

/-- The infoer's view of the server's message is what the server knows. -/
theorem C54_lossless (env : Env) (start : UInt64) (filename : Bytes) (length : Int64) (s : Song)
    (h : Known env start filename length s) : received (newSong env start filename length) = s := by
  obtain ⟨h1, h2, h3, h4, h5⟩ := h
  rw [json_bytes] at h4
  have hl : collectLyrics env filename = s.lyrics := by
    unfold collectLyrics
    rcases h4 with ⟨c, hc, hj⟩ | ⟨hn, he⟩
    · simp [hc, hj]
    · cases hf : env.file (env.join env.audioDir (filename ++ [46, 106, 115, 111, 110])) with
      | none => simp [he]
      | some c => simp [hn c hf, he]
  have ht : collectTags env filename = s.tags := by
    unfold collectTags
    rcases h5 with ⟨c, hc, hj⟩ | ⟨hn, he⟩
    · simp [hc, hj]
    · cases hf : env.file (env.join env.audioDir filename) with
      | none => simp [he]
      | some c => simp [hn c hf, he]
  cases s
  simp only [received, newSong, hl, ht, toWireLyrics] at *
  simp [h1, h2, h3, List.map_map, Function.comp_def]

/-- Every song is known in exactly one way. -/
theorem known_exists (env : Env) (start : UInt64) (filename : Bytes) (length : Int64) : ∃ s, Known env start filename length s := by
  refine ⟨⟨filename, start, length, collectLyrics env filename, collectTags env filename⟩, rfl, rfl, rfl, ?_, ?_⟩
  · rw [json_bytes]
    unfold collectLyrics
    cases hf : env.file (env.join env.audioDir (filename ++ [46, 106, 115, 111, 110])) with
    | none => right; simp
    | some c =>
      cases hj : env.json c with
      | none => right; simp [hj]
      | some l => left; exact ⟨c, rfl, by simp only [hj]⟩
  · unfold collectTags
    cases hf : env.file (env.join env.audioDir filename) with
    | none => right; simp
    | some c =>
      cases hj : env.tags c with
      | none => right; simp [hj]
      | some l => left; exact ⟨c, rfl, by simp only [hj]⟩

theorem toWire_isSome (z : Zlib) (m : Msg) : (toWire z m).isSome ↔ validStrings m = true := by
  unfold toWire
  have henv : ∀ d, marshal (.envelope { type := typeName m.mtype, data := d }) ≠ none := by
    intro d
    have := (C55_encodes_iff (.envelope { type := typeName m.mtype, data := d })).2 (by rw [validStrings]; exact typeName_valid _)
    intro e; rw [e] at this; simp at this
  rw [← C55_encodes_iff]
  cases hm : marshal m with
  | none => simp
  | some inner =>
    simp only
    cases he : marshal (.envelope { type := typeName m.mtype, data := z.compress inner }) with
    | none => exact absurd he (henv _)
    | some env => simp

/-- C54: a song's announcement can be sent exactly if all its texts are valid UTF-8: otherwise encoding fails, and infoers are
told nothing at all about the song. -/
theorem C54_sent_iff (z : Zlib) (env : Env) (start : UInt64) (filename : Bytes) (length : Int64) (s : Song)
    (h : Known env start filename length s) :
    (toWire z (.newSongInfo (newSong env start filename length))).isSome ↔ Utf8 s := by
  have hv : validStrings (.newSongInfo (newSong env start filename length)) = true ↔ Utf8 s := by
    have e := C54_lossless env start filename length s h
    rw [← e]
    simp only [validStrings, newSong, validMetadata, Utf8, received, Bool.and_eq_true, List.all_eq_true, toWireLyrics,
      List.map_map, List.mem_map, Function.comp_apply, forall_exists_index, and_imp, forall_apply_eq_imp_iff₂]
    simp only [and_assoc]
  rw [toWire_isSome, hv]

/-- The announcements among messages. -/
def announcements (ms : List Msg) : List NewSongInfo :=
  ms.filterMap fun m => match m with | .newSongInfo n => some n | _ => none

theorem handled_perm {l ms l'} (h : Handled l ms l') : l'.Perm (l ++ (announcements ms).map received) := by
  induction h with
  | nil l => simp [announcements]
  | @song l l' l'' m ms hs _ ih =>
    have : announcements (Msg.newSongInfo m :: ms) = m :: announcements ms := rfl
    rw [this, List.map_cons]
    refine ih.trans ?_
    have := hs.1.append_right ((announcements ms).map received)
    simpa using this
  | @other l l' m ms hn _ ih =>
    have : announcements (m :: ms) = announcements ms := by
      cases m <;> first | rfl | exact absurd rfl (hn _)
    rw [this]; exact ih

theorem handled_sorted {l ms l'} (h : Handled l ms l') (hl : l.Pairwise fun a b => a.start.toNat ≤ b.start.toNat) :
    l'.Pairwise fun a b => a.start.toNat ≤ b.start.toNat := by
  induction h with
  | nil l => exact hl
  | song hs _ ih => exact ih hs.2
  | other _ _ ih => exact ih hl

/-- C54. The server starts to stream songs (start, file name, length), of which it knows `songs`, and sends their announcements
and any other messages over a connection. However the bytes are cut up, and in whatever order the messages are handled, the
infoer's list then holds exactly the songs the server knows, with the lyrics, tags, names, starts and lengths, ordered by
start. -/
theorem C54_reaches_infoer_partial (z : Zlib) (maxAlloc : Nat) (ha : maxAlloc < 2 ^ 63) (env : Env)
    (starts : List (UInt64 × Bytes × Int64)) (songs : List Song) (hlen : starts.length = songs.length)
    (hk : ∀ p ∈ starts.zip songs, Known env p.1.1 p.1.2.1 p.1.2.2 p.2)
    (ms : List Msg) (ws : List Bytes) (hf : Frames z maxAlloc ms ws)
    (hm : announcements ms = starts.map fun s => newSong env s.1 s.2.1 s.2.2)
    (segs : List Bytes) (hs : segs.flatten = ws.flatten)
    (order : List Msg) (ho : order.Perm (handleConnection z maxAlloc segs).1) (l : List Song) (hh : Handled [] order l) :
    l.Perm songs ∧ l.Pairwise fun a b => a.start.toNat ≤ b.start.toNat := by
  refine ⟨?_, handled_sorted hh List.Pairwise.nil⟩
  rw [C24_boundaries z maxAlloc ha ms ws hf segs hs] at ho
  have h1 := handled_perm hh
  rw [List.nil_append] at h1
  refine h1.trans ?_
  have h2 : (announcements order).Perm (announcements ms) := ho.filterMap _
  refine (h2.map received).trans ?_
  rw [hm, List.map_map]
  have : ∀ (starts : List (UInt64 × Bytes × Int64)) (songs : List Song), starts.length = songs.length →
      (∀ p ∈ starts.zip songs, Known env p.1.1 p.1.2.1 p.1.2.2 p.2) →
      starts.map (received ∘ fun s => newSong env s.1 s.2.1 s.2.2) = songs := by
    intro starts
    induction starts with
    | nil => intro songs h _; cases songs with
      | nil => rfl
      | cons _ _ => simp at h
    | cons a as ih =>
      intro songs h hk
      cases songs with
      | nil => simp at h
      | cons s ss =>
        rw [List.map_cons, ih ss (by simpa using h) (fun p hp => hk p (List.mem_cons_of_mem _ hp))]
        rw [Function.comp_apply, C54_lossless env a.1 a.2.1 a.2.2 s (hk (a, s) (by simp))]
  rw [this starts songs hlen hk]

section examples
/-- one song "a" with a title and two lines of lyrics -/
def exEnv : Env where
  file p := if p = [97] then some [1] else if p = [97, 46, 106, 115, 111, 110] then some [2] else none
  join _ b := b
  json c := if c = [2] then some [[⟨10, [120]⟩, ⟨20, [121]⟩], [⟨30, [122]⟩]] else none
  tags c := if c = [1] then some ⟨[84], [], []⟩ else none
  audioDir := []
def exSong : Song := ⟨[97], 5, 100, [[⟨10, [120]⟩, ⟨20, [121]⟩], [⟨30, [122]⟩]], ⟨[84], [], []⟩⟩
theorem exKnown : Known exEnv 5 [97] 100 exSong :=
  ⟨rfl, rfl, rfl, Or.inl ⟨[2], by rw [json_bytes]; rfl, rfl⟩, Or.inl ⟨[1], rfl, rfl⟩⟩
example : received (newSong exEnv 5 [97] 100) = exSong := C54_lossless _ _ _ _ _ exKnown
example : Handled [] [.pingMessage, .newSongInfo (newSong exEnv 5 [97] 100)] [exSong] :=
  .other (by simp) (.song ⟨.refl _, by simp⟩ (.nil _))
/-- a file name that is not UTF-8 -/
example (z : Zlib) : toWire z (.newSongInfo (newSong exEnv 5 [255] 100)) = none := by
  have := (C54_sent_iff z exEnv 5 [255] 100 ⟨[255], 5, 100, [], ⟨[], [], []⟩⟩
    ⟨rfl, rfl, rfl, Or.inr ⟨by rw [json_bytes]; intro c h; simp [exEnv] at h, rfl⟩, Or.inr ⟨by intro c h; simp [exEnv] at h, rfl⟩⟩).1
  cases h : toWire z (.newSongInfo (newSong exEnv 5 [255] 100)) with
  | none => rfl
  | some w => have := (this (by simp [h])).1; simp [utf8Valid] at this
end examples

end MS.SongInfo
