import Verif.Model.Screen
import Verif.Props.EndToEnd
import Verif.Props.Drawing
import Verif.Props.ProgressBar
import Verif.Props.VolumeLine
import Verif.Props.SongInfo
/-!
# Property C113: what the screen of an infoer shows

From the server's streaming loop and the files beside the songs to the cells of the window.
-/
set_option linter.unusedSimpArgs false
set_option linter.unusedVariables false
namespace MS.Screen
open MS.StreamLoop MS.Infoer MS.Spec MS.EndToEnd MS.Display MS.SongInfo MS.Proto MS.Float64

/-! ## Specification -/

/-- A text on the screen: the runes of `text` at row `y` from column `x` on, each in the column of its byte offset. -/
def Reads (ws : List Write) (x y : Int) (text : List Char) : Prop :=
  ∀ (k : Nat) (hk : k < text.length), cell ws (x + byteLen (text.take k)) y = some text[k]

/-- A text on the screen as far as it fits before column `stop`. -/
def ReadsUntil (ws : List Write) (stop x y : Int) (text : List Char) : Prop :=
  ∀ (k : Nat) (hk : k < text.length), x + byteLen (text.take k) < stop → cell ws (x + byteLen (text.take k)) y = some text[k]

/-- A time in whole seconds as `m:ss`, or `h:mm:ss` from one hour on. -/
def Clock (text : List Char) (secs : Nat) : Prop :=
  ∃ h m s : Nat, h * 3600 + m * 60 + s = secs ∧ m < 60 ∧ s < 60 ∧
    (h = 0 → ∃ ms ss, text = ms ++ ':' :: ss ∧ PlainNumber ms m ∧ TwoDigits ss s) ∧
    (h ≠ 0 → ∃ hs ms ss, text = hs ++ ':' :: (ms ++ ':' :: ss) ∧ PlainNumber hs h ∧ TwoDigits ms m ∧ TwoDigits ss s)

/-- What the server announces for an entry of its log of started songs. -/
def announced (env : Env) (e : Nat × String × Nat) : NewSongInfo :=
  newSong env (UInt64.ofNat e.1) (enc e.2.1.toList) (Int64.ofNat e.2.2)

/-- What the infoer knows of a song is what the server announced. -/
def Delivered (env : Env) (news : List (Nat × String × Nat)) (d : Nat × String × Nat → Desc) : Prop :=
  ∀ e ∈ news, Stored (received (announced env e)) (d e)

variable {α : Type}

/-- The song of a block: the last one announced up to its beginning. -/
def SongOf (s : St α) (b : Nat × Nat) (e : Nat × String × Nat) : Prop :=
  b ∈ s.blocks ∧ e ∈ s.news ∧ e.1 ≤ b.1 ∧ ∀ e' ∈ s.news, e'.1 ≤ b.1 → e'.1 ≤ e.1

/-- The number of samples of the song's audio that were streamed before index `n`. -/
def played (s : St α) (e : Nat × String × Nat) (n : Nat) : Nat := (audioBetween s.out e.1 n).length

/-- A server and an infoer that watches it: the history of the server without the race of C10; what the infoer received, each
announcement at most once and in any order; redraws at nondecreasing times with positions that do not go back; all
announcements before the position shown have arrived. -/
structure Watching (c : Cfg α) (s : St α) (songs : List String) (acts : List Act) (d : Nat × String × Nat → Desc) (rate : Nat)
    (evs : List (Ev Desc)) (now : Int) (before : State Desc) (outs : List (PlaybackInfo Desc)) (n : Nat) : Prop where
  brk : 0 < c.brk
  quiet : Quiet c (init songs) acts
  server : run c (init songs) acts = some s
  infoer : Run rate ⟨[], [], []⟩ evs outs before
  songs_in : ∀ x ∈ songsOf evs, x ∈ s.news.map (asSong d)
  songs_once : (songsOf evs).Nodup
  pauses_in : ∀ x ∈ pausesOf evs, x ∈ s.pauses.map asToggle
  pauses_once : (pausesOf evs).Nodup
  chunks_once : (chunksOf evs).Pairwise (fun a b => a.startIndex ≠ b.startIndex)
  times : (queriesOf evs ++ [now]).Pairwise (· ≤ ·)
  range : ∀ x ∈ outs, 0 ≤ x.sample ∧ x.sample < 2 ^ 63
  forward : ((outs.map (·.sample) ++ [(n : Int)]).filter (· ≠ 0)).Pairwise (· ≤ ·)
  here : (info rate now before).1.sample = n
  small : n < 2 ^ 63
  songs_arrived : ∀ e ∈ s.news, e.1 < n → asSong d e ∈ songsOf evs
  pauses_arrived : ∀ p ∈ s.pauses, p.2 < n → asToggle p ∈ pausesOf evs

theorem run_snoc {σ : Type} {rate : Nat} {now : Int} {evs : List (Ev σ)} {s0 s1 : State σ} {outs : List (PlaybackInfo σ)}
    (h : Run rate s0 evs outs s1) :
    Run rate s0 (evs ++ [.query now]) (outs ++ [(info rate now s1).1]) (info rate now s1).2 := by
  induction h with
  | nil s => exact .query (.nil _)
  | song h _ ih => exact .song h ih
  | chunk h _ ih => exact .chunk h ih
  | pause h _ ih => exact .pause h ih
  | query _ ih => exact .query ih

theorem enc_injective {a b : List Char} (h : enc a = enc b) : a = b := by
  have hs : String.ofList a = String.ofList b := by
    apply String.toByteArray_inj.1
    have e : ∀ l : List Char, (String.ofList l).toByteArray = ⟨(enc l).toArray⟩ := by
      intro l
      apply ByteArray.ext
      simp [enc, List.utf8Encode, String.ofList]
    rw [e, e, h]
  simpa using congrArg String.toList hs

theorem clock_of (d : Nat) : Clock (fmtDuration d) (d / 1000000000) := C47_duration d

theorem secs_eq (p rate : Nat) : p * 1000000000 / rate / 1000000000 = p / rate := by
  rw [Nat.div_div_eq_div_mul, Nat.mul_div_mul_right _ _ (by omega)]

theorem millis_eq (p rate : Nat) : p * 1000000000 / rate / 1000000 = p * 1000 / rate := by
  rw [Nat.div_div_eq_div_mul, show p * 1000000000 = p * 1000 * 1000000 by omega, Nat.mul_div_mul_right _ _ (by omega)]

theorem volumeLine_ascii (v : Nat) : Ascii ("Volume: ".toList ++ sixDigits v ++ ['%']) := by
  have hd : ∀ n, (Fmt.digit n).toNat < 128 := fun n => by
    have h : ∀ m : Fin 10, (Char.ofNat (48 + m.val)).toNat < 128 := by decide
    exact h ⟨n % 10, Nat.mod_lt _ (by omega)⟩
  refine ascii_append (ascii_append (by unfold Ascii; decide) ?_) (by unfold Ascii; decide)
  unfold sixDigits
  exact ascii_cons (hd _) (ascii_cons (hd _) (ascii_cons (hd _) (ascii_cons (by decide) (ascii_cons (hd _) (ascii_cons (hd _)
    (by simp [Ascii]))))))

/-! ## The infoer's information -/

section
variable {c : Cfg α} {s : St α} {songs : List String} {acts : List Act} {d : Nat × String × Nat → Desc} {rate : Nat}
  {evs : List (Ev Desc)} {now : Int} {before : State Desc} {outs : List (PlaybackInfo Desc)} {n : Nat}

/-- Every block that is not empty belongs to exactly one song. -/
theorem C113_song (W : Watching c s songs acts d rate evs now before outs n) (b : Nat × Nat) (hb : b ∈ s.blocks)
    (h0 : 0 < b.2) :
    ∃ e, SongOf s b e ∧ ∀ e', SongOf s b e' → e' = e := by
  obtain ⟨-, -, -, blk, -⟩ := blockInv_run songs acts s W.server
  obtain ⟨nw1, -⟩ := C09_announcements_increasing c (Or.inl W.brk) songs acts s W.server
  obtain ⟨e, hem, heb, -, hother⟩ := blk b hb
  have he : SongOf s b e := ⟨hb, hem, heb, fun e' he' h => by
    rcases hother e' he' with h1 | h1
    · exact h1
    · have := heb; omega⟩
  refine ⟨e, he, fun e' ⟨_, h1, h2, h3⟩ => eq_of_key nw1 h1 hem ?_⟩
  have := h3 e hem heb
  have := he.2.2.2 e' h1 h2
  omega

theorem core (W : Watching c s songs acts d rate evs now before outs n) {b : Nat × Nat} {e : Nat × String × Nat}
    (he : SongOf s b e) (hb1 : b.1 < n) (hb2 : n ≤ b.1 + b.2) :
    (info rate now before).1.song = some (asSong d e) ∧
      (∃ l, c.dec e.2.1 = some l ∧ audioBetween s.out e.1 n <+: l ∧ e.2.2 = l.length ∧
        (e.1 ≠ 0 →
          (info rate now before).1.timeInSong = ((played s e n * 1000000000 / rate : Nat) : Int) ∧
          (info rate now before).1.songLength = ((l.length * 1000000000 / rate : Nat) : Int) ∧
          (info rate now before).1.progress = if 0 < l.length then some ((played s e n : Int), (l.length : Int)) else none)) ∧
      ((info rate now before).1.playing = true ↔ ∃ a, s.out[n - 1]? = some (some a)) := by
  obtain ⟨e0, h1, h2, h3, h4, ⟨l, h5, h6, h7⟩, h8⟩ := C46_displayed_time_partial c W.brk songs acts s W.quiet W.server d rate
    evs now _ outs _ (run_snoc W.infoer) W.songs_in W.songs_once W.pauses_in W.pauses_once W.chunks_once W.times
    (by
      intro x hx
      rcases List.mem_append.1 hx with hx | hx
      · exact W.range x hx
      · rw [List.mem_singleton.1 hx, W.here]; have := W.small; omega)
    (by rw [List.map_append, List.map_singleton, W.here]; exact W.forward)
    n W.here b he.1 hb1 hb2 W.songs_arrived W.pauses_arrived
  obtain ⟨e1, _, huniq⟩ := C113_song W b he.1 (by omega)
  have heq : e0 = e := by
    rw [huniq e he]
    refine huniq e0 ⟨he.1, h1, h2, fun e' he' h => ?_⟩
    rcases h3 e' he' with h | h <;> omega
  subst heq
  obtain ⟨i, hi'⟩ := List.getElem?_of_mem h1
  obtain ⟨l', hl', hlen, -⟩ := C08_each_song_complete c songs acts s W.server i e0.1 e0.2.1 e0.2.2 hi'
  have : l' = l := by rw [h5] at hl'; exact (Option.some.inj hl').symm
  subst this
  refine ⟨h4, ⟨l', h5, h6, hlen, fun h0 => ?_⟩, h8⟩
  obtain ⟨t1, t2, t3⟩ := h7 h0
  refine ⟨?_, ?_, t3⟩
  · rw [t1, played]; simp [Infoer.second]
  · rw [t2]; simp [Infoer.second]

/-! ## The screen -/

/-- C113: the frame says Playing if the sample just played is audio, else Paused. -/
theorem C113_status (W : Watching c s songs acts d rate evs now before outs n) (b : Nat × Nat) (e : Nat × String × Nat)
    (he : SongOf s b e) (hb1 : b.1 < n) (hb2 : n ≤ b.1 + b.2) (size : Nat) (w h : Int) (volume : UInt64) :
    ((∃ a, s.out[n - 1]? = some (some a)) → Reads (screen rate size w h now before volume) 2 (h - 5) "Playing".toList) ∧
    ((¬ ∃ a, s.out[n - 1]? = some (some a)) → Reads (screen rate size w h now before volume) 2 (h - 5) "Paused".toList) := by
  obtain ⟨-, -, hp⟩ := core W he hb1 hb2
  have key : ∀ (text : List Char), Ascii text →
      (text = if (info rate now before).1.playing = true then "Playing".toList else "Paused".toList) →
      Reads (screen rate size w h now before volume) 2 (h - 5) text := by
    intro text ha ht k hk
    rw [byteLen_ascii (fun c hc => ha c (List.mem_of_mem_take hc)), List.length_take, Nat.min_eq_left (by omega)]
    exact C68_status size w h (viewOf (info rate now before).1 volume) k text ht hk
  constructor
  · intro h1
    exact key _ (by unfold Ascii; decide) (by rw [if_pos (hp.2 h1)])
  · intro h1
    exact key _ (by unfold Ascii; decide) (by rw [if_neg (fun hh => h1 (hp.1 hh))])

/-- What the infoer's description of the song says, in terms of what the server knows of it. -/
theorem stored_known {env : Env} (hd : Delivered env s.news d) {e : Nat × String × Nat} (he : e ∈ s.news) {k : SongInfo.Song}
    (hk : Known env (UInt64.ofNat e.1) (enc e.2.1.toList) (Int64.ofNat e.2.2) k) : Stored k (d e) := by
  have := hd e he
  rwa [announced, C54_lossless _ _ _ _ _ hk] at this

theorem view_desc {o : PlaybackInfo Desc} {e : Nat × String × Nat} (h : o.song = some (asSong d e)) (volume : UInt64) :
    (viewOf o volume).title = (d e).title ∧ (viewOf o volume).filename = (d e).filename ∧
    (viewOf o volume).artist = (d e).artist ∧ (viewOf o volume).album = (d e).album ∧ (viewOf o volume).lyrics = (d e).lyrics := by
  simp [viewOf, h, asSong]

theorem view_progress (o : PlaybackInfo Desc) (volume : UInt64) : (viewOf o volume).progress = barValue o.progress := by
  simp only [viewOf]

theorem enc_nil {cs : List Char} : enc cs = [] ↔ cs = [] := by
  constructor
  · intro h; exact enc_injective (h.trans rfl)
  · rintro rfl; rfl

/-- C113: the song line begins with the title in the song's tags or, if there is none, with the file name of the song. -/
theorem C113_title (W : Watching c s songs acts d rate evs now before outs n) (env : Env) (hd : Delivered env s.news d)
    (b : Nat × Nat) (e : Nat × String × Nat) (he : SongOf s b e) (hb1 : b.1 < n) (hb2 : n ≤ b.1 + b.2)
    (k : SongInfo.Song) (hk : Known env (UInt64.ofNat e.1) (enc e.2.1.toList) (Int64.ofNat e.2.2) k)
    (size : Nat) (w h : Int) (hw : 2 ≤ w) (volume : UInt64) :
    ∃ name, (enc name = if k.tags.title = [] then enc e.2.1.toList else k.tags.title) ∧
      ReadsUntil (screen rate size w h now before volume) (w - 1) 1 (h - 4) name := by
  obtain ⟨hs, -, -⟩ := core W he hb1 hb2
  have st := stored_known hd he.2.1 hk
  obtain ⟨v1, v2, -⟩ := view_desc hs volume
  by_cases ht : (d e).title = []
  · refine ⟨(d e).filename, ?_, ?_⟩
    · rw [st.title, if_pos (enc_nil.2 ht), ← st.filename, hk.1]
    · intro i hi hfit
      exact C68_title size w h hw (viewOf (info rate now before).1 volume) (d e).filename (.inr ⟨v1.trans ht, v2.symm⟩) i hi _ rfl
        (by omega)
  · refine ⟨(d e).title, ?_, ?_⟩
    · rw [st.title, if_neg (fun hh => ht (enc_nil.1 hh))]
    · intro i hi hfit
      exact C68_title size w h hw (viewOf (info rate now before).1 volume) (d e).title (.inl ⟨by rw [v1]; exact ht, v1.symm⟩) i hi _ rfl
        (by omega)

/-- The artist and album in the song's tags as the infoer writes them. -/
def artistLine (k : SongInfo.Song) : Bytes :=
  if k.tags.artist = [] then [] else if k.tags.album = [] then k.tags.artist else k.tags.artist ++ enc " - ".toList ++ k.tags.album

theorem utf8_length (ch : Char) : (String.utf8EncodeChar ch).length = ch.utf8Size := by
  simp

theorem enc_length (cs : List Char) : (enc cs).length = byteLen cs := by
  induction cs with
  | nil => rfl
  | cons a as ih => simp only [enc, List.flatMap_cons, List.length_append, byteLen, List.map_cons, List.sum_cons] at ih ⊢; rw [ih, utf8_length]

theorem enc_append (a b : List Char) : enc (a ++ b) = enc a ++ enc b := by simp [enc]

/-- C113: right-aligned in the line below, the playing time of the song's audio streamed so far and its length, in whole
seconds, if there is room beside artist and album. -/
theorem C113_time (W : Watching c s songs acts d rate evs now before outs n) (env : Env) (hd : Delivered env s.news d)
    (b : Nat × Nat) (e : Nat × String × Nat) (he : SongOf s b e) (hb1 : b.1 < n) (hb2 : n ≤ b.1 + b.2) (h0 : e.1 ≠ 0)
    (l : List α) (hl : c.dec e.2.1 = some l)
    (k : SongInfo.Song) (hk : Known env (UInt64.ofNat e.1) (enc e.2.1.toList) (Int64.ofNat e.2.2) k)
    (size : Nat) (w h : Int) (hw : 2 ≤ w) (volume : UInt64) :
    ∃ t1 t2, Clock t1 (played s e n / rate) ∧ Clock t2 (l.length / rate) ∧
      (((artistLine k).length + (t1 ++ '/' :: t2).length : Int) ≤ w - 2 →
        Reads (screen rate size w h now before volume) (w - 1 - (t1 ++ '/' :: t2).length) (h - 3) (t1 ++ '/' :: t2)) := by
  obtain ⟨hs, ⟨l', hl', -, -, ht⟩, -⟩ := core W he hb1 hb2
  rw [hl] at hl'
  injection hl' with hl'
  subst hl'
  obtain ⟨t1, t2, -⟩ := ht h0
  have st := stored_known hd he.2.1 hk
  obtain ⟨-, -, v3, v4, -⟩ := view_desc hs volume
  have c1 := clock_of (played s e n * 1000000000 / rate)
  have c2 := clock_of (l.length * 1000000000 / rate)
  rw [secs_eq] at c1 c2
  refine ⟨_, _, c1, c2, fun hroom i hi => ?_⟩
  have ha : Ascii (fmtDuration ((played s e n * 1000000000 / rate : Nat) : Int) ++
      '/' :: fmtDuration ((l.length * 1000000000 / rate : Nat) : Int)) :=
    ascii_append (fmtDuration_ascii _) (ascii_cons (by decide) (fmtDuration_ascii _))
  rw [byteLen_ascii (fun c hc => ha c (List.mem_of_mem_take hc)), List.length_take, Nat.min_eq_left (by omega)]
  refine C68_time size w h hw (viewOf (info rate now before).1 volume) _ ?_ _ rfl ?_ i hi
  · show _ = fmtDuration (info rate now before).1.timeInSong ++ '/' :: fmtDuration (info rate now before).1.songLength
    rw [t1, t2]
  · have e1 : (artistLine k).length = byteLen (if (viewOf (info rate now before).1 volume).artist = [] then []
        else if (viewOf (info rate now before).1 volume).album = [] then (viewOf (info rate now before).1 volume).artist
        else (viewOf (info rate now before).1 volume).artist ++ " - ".toList ++ (viewOf (info rate now before).1 volume).album) := by
      rw [v3, v4, ← enc_length]
      congr 1
      unfold artistLine
      rw [st.artist, st.album]
      simp only [enc_nil]
      split
      · rfl
      · split
        · rfl
        · rw [enc_append, enc_append]
    rw [← e1]
    exact_mod_cast hroom

/-- C113: the bar is filled up to the fraction of the song that was streamed, to within one cell. -/
theorem C113_bar (W : Watching c s songs acts d rate evs now before outs n)
    (b : Nat × Nat) (e : Nat × String × Nat) (he : SongOf s b e) (hb1 : b.1 < n) (hb2 : n ≤ b.1 + b.2) (h0 : e.1 ≠ 0)
    (l : List α) (hl : c.dec e.2.1 = some l) (size : Nat) (w h : Int) (hs : Sizes (w - 2) l.length) (volume : UInt64)
    (filled : Nat) (hf : filled = ((List.range (w - 2).toNat).filter fun (i : Nat) =>
      cell (screen rate size w h now before volume) (1 + i) (h - 2) = some '█').length) :
    ((filled : Int) * l.length - (w - 2) * played s e n).natAbs ≤ l.length := by
  obtain ⟨-, ⟨l', hl', hpre, -, ht⟩, -⟩ := core W he hb1 hb2
  rw [hl] at hl'
  injection hl' with hl'
  subst hl'
  obtain ⟨-, -, t3⟩ := ht h0
  have hlen : played s e n ≤ l.length := hpre.length_le
  rw [if_pos (by have := hs.2.1; omega)] at t3
  have hv : (viewOf (info rate now before).1 volume).progress = barValue (some ((played s e n : Int), (l.length : Int))) := by
    rw [view_progress, t3]
  have := C110_screen size w h (played s e n) l.length _ hv hs (by omega) (by omega)
  rw [hf]
  exact this

/-- C113: the rows of the lyrics, from the newest up: of the lines before the next upcoming one, the words up to 100 ms after
the playing time of the song's audio streamed so far. -/
theorem C113_lyrics (W : Watching c s songs acts d rate evs now before outs n) (env : Env) (hd : Delivered env s.news d)
    (b : Nat × Nat) (e : Nat × String × Nat) (he : SongOf s b e) (hb1 : b.1 < n) (hb2 : n ≤ b.1 + b.2) (h0 : e.1 ≠ 0)
    (k : SongInfo.Song) (hk : Known env (UInt64.ofNat e.1) (enc e.2.1.toList) (Int64.ofNat e.2.2) k)
    (size : Nat) (w h : Int) (hw : 2 ≤ w) (volume : UInt64) (rows : Nat) (hrows : (rows : Int) = min (size : Int) (h - 7)) :
    ∃ lyrics : List Display.Line,
      k.lyrics.map (fun l => l.map fun w => (w.timestamp.toInt, w.caption)) =
        lyrics.map (fun l => l.map fun a => (a.timestamp, enc a.caption)) ∧
      ∀ (m : Nat), Upcoming lyrics ((played s e n * 1000 / rate : Nat) : Int) m → ∀ r < rows, ∀ line,
        r < m → lyrics[m - 1 - r]? = some line →
          ReadsUntil (screen rate size w h now before volume) (w - 1) 1 (h - 7 - r)
            (textAt line ((played s e n * 1000 / rate : Nat) : Int)) := by
  obtain ⟨hs, ⟨l, -, -, -, ht⟩, -⟩ := core W he hb1 hb2
  obtain ⟨t1, -, -⟩ := ht h0
  have st := stored_known hd he.2.1 hk
  obtain ⟨-, -, -, -, v5⟩ := view_desc hs volume
  refine ⟨(d e).lyrics, st.lyrics, fun m hm r hr line hrm hline => ?_⟩
  have hms : ((played s e n * 1000000000 / rate : Nat) : Int).tdiv 1000000 = ((played s e n * 1000 / rate : Nat) : Int) := by
    rw [← millis_eq, Int.ofNat_tdiv _ 1000000]; rfl
  have hview := (C45_view rows (d e).lyrics ((played s e n * 1000000000 / rate : Nat) : Int) m (by rw [hms]; exact hm)).2 r hr
  rw [hms] at hview
  have hh := hview.1 hrm line hline
  intro i hi hfit
  refine C68_lyrics size w h hw (viewOf (info rate now before).1 volume) rows hrows r _ ?_ i hi _ rfl (by omega)
  rw [v5]
  show (history rows (d e).lyrics (info rate now before).1.timeInSong)[r]? = _
  rw [t1]
  exact hh

/-- C113: the volume, as typed with up to two decimals of a percent, right-aligned in the line of the title if there is
room. -/
theorem C113_volume (W : Watching c s songs acts d rate evs now before outs n) (env : Env) (hd : Delivered env s.news d)
    (b : Nat × Nat) (e : Nat × String × Nat) (he : SongOf s b e) (hb1 : b.1 < n) (hb2 : n ≤ b.1 + b.2)
    (k : SongInfo.Song) (hk : Known env (UInt64.ofNat e.1) (enc e.2.1.toList) (Int64.ofNat e.2.2) k)
    (size : Nat) (w h : Int) (hw : 2 ≤ w) (volume : UInt64) (v : Nat) (hv : v < 100000) (hp : Parsed volume v 10000)
    (hroom : (((if k.tags.title = [] then enc e.2.1.toList else k.tags.title).length : Nat) : Int) + 15 ≤ w - 2) :
    ∃ text, text.length = 15 ∧ text = "Volume: ".toList ++ sixDigits v ++ ['%'] ∧
      Reads (screen rate size w h now before volume) (w - 16) (h - 4) text := by
  obtain ⟨hs, -, -⟩ := core W he hb1 hb2
  have st := stored_known hd he.2.1 hk
  obtain ⟨v1, v2, -⟩ := view_desc hs volume
  refine ⟨_, ?_, rfl, ?_⟩
  · rfl
  · have ha : Ascii ("Volume: ".toList ++ sixDigits v ++ ['%']) := volumeLine_ascii v
    intro i hi
    rw [byteLen_ascii (fun c hc => ha c (List.mem_of_mem_take hc)), List.length_take, Nat.min_eq_left (by omega),
      ← List.getElem?_eq_getElem]
    by_cases ht : (d e).title = []
    · refine C111_screen size w h hw (viewOf (info rate now before).1 volume) volume v hv hp rfl (d e).filename
        (.inr ⟨v1.trans ht, v2.symm⟩) ?_ i hi
      rw [st.title, if_pos (enc_nil.2 ht), ← hk.1, st.filename, enc_length] at hroom
      exact hroom
    · refine C111_screen size w h hw (viewOf (info rate now before).1 volume) volume v hv hp rfl (d e).title
        (.inl ⟨by rw [v1]; exact ht, v1.symm⟩) ?_ i hi
      rw [st.title, if_neg (fun hh => ht (enc_nil.1 hh)), enc_length] at hroom
      exact hroom

theorem fmt_zero : fmtDuration 0 = "0:00".toList := by
  simp [fmtDuration, hour, minute, Display.second, decI, dec02I, Fmt.dec, Fmt.dec0, Fmt.digit]

/-- C113, where the full statement is false: of a song that starts at index 0 the screen always shows the time 0:00/0:00 and an
empty bar. -/
theorem C113_first_song (W : Watching c s songs acts d rate evs now before outs n) (env : Env) (hd : Delivered env s.news d)
    (b : Nat × Nat) (e : Nat × String × Nat) (he : SongOf s b e) (hb1 : b.1 < n) (hb2 : n ≤ b.1 + b.2) (h0 : e.1 = 0)
    (size : Nat) (w h : Int) (hw : 4 ≤ w) (hw1 : w < 2 ^ 53) (volume : UInt64) :
    ((artistLine (received (announced env e))).length + 9 ≤ w - 2 →
      Reads (screen rate size w h now before volume) (w - 10) (h - 3) "0:00/0:00".toList) ∧
    (List.range (w - 2).toNat).filter (fun (i : Nat) =>
      cell (screen rate size w h now before volume) (1 + i) (h - 2) = some '█') = [] := by
  obtain ⟨hs, -, -⟩ := core W he hb1 hb2
  have st := hd e he.2.1
  obtain ⟨-, -, v3, v4, -⟩ := view_desc hs volume
  have key : (info rate now before).1.timeInSong = 0 ∧ (info rate now before).1.songLength = 0 ∧
      (info rate now before).1.progress = none := by
    have hst : songStart (currentSong (sampleAt rate now (removeOldChunks rate now before.chunks)) before.songs) = 0 := by
      have h1 : (info rate now before).1.song = currentSong (sampleAt rate now (removeOldChunks rate now before.chunks)) before.songs := by
        simp only [info]; split <;> rfl
      rw [← h1, hs]; exact h0
    simp only [info]
    rw [if_neg (by rw [hst]; simp)]
    exact ⟨rfl, rfl, rfl⟩
  constructor
  · intro hroom i hi
    have ha : Ascii "0:00/0:00".toList := by unfold Ascii; decide
    rw [byteLen_ascii (fun c hc => ha c (List.mem_of_mem_take hc)), List.length_take, Nat.min_eq_left (by omega)]
    have h2 := C68_time size w h (by omega) (viewOf (info rate now before).1 volume) "0:00/0:00".toList (by
      show _ = fmtDuration (info rate now before).1.timeInSong ++ '/' :: fmtDuration (info rate now before).1.songLength
      rw [key.1, key.2.1, fmt_zero]; rfl) _ rfl (by
      have e1 : (artistLine (received (announced env e))).length = byteLen (if (viewOf (info rate now before).1 volume).artist = [] then []
          else if (viewOf (info rate now before).1 volume).album = [] then (viewOf (info rate now before).1 volume).artist
          else (viewOf (info rate now before).1 volume).artist ++ " - ".toList ++ (viewOf (info rate now before).1 volume).album) := by
        rw [v3, v4, ← enc_length]
        congr 1
        unfold artistLine
        rw [st.artist, st.album]
        simp only [enc_nil]
        split
        · rfl
        · split
          · rfl
          · rw [enc_append, enc_append]
      rw [← e1]
      exact hroom) i hi
    have e9 : ("0:00/0:00".toList).length = 9 := rfl
    rw [e9, show w - 1 - ((9 : Nat) : Int) + i = w - 10 + i by omega] at h2
    exact h2
  · have hv : (viewOf (info rate now before).1 volume).progress = barValue none := by rw [view_progress, key.2.2]
    have hnone := C110_none 1 (h - 2) (w - 2) (by omega) (by omega)
    unfold fullCells at hnone
    rw [← List.length_eq_zero_iff, ← hnone]
    congr 1
    apply List.filter_congr
    intro i hi
    rw [List.mem_range] at hi
    unfold screen
    rw [C68_bar size w h (by omega) _ (1 + i) (by omega) (by omega), hv]

end

/-- C113: while no song that is announced has started, the screen shows the name None and the time 0:00/0:00; if nothing has
arrived yet it says Playing. -/
theorem C113_idle (rate : Nat) (now : Int) (st : State Desc) (hn : ∀ m ∈ st.songs, (info rate now st).1.sample ≤ m.startIndex)
    (size : Nat) (w h : Int) (hw : 2 ≤ w) (volume : UInt64) :
    ReadsUntil (screen rate size w h now st volume) (w - 1) 1 (h - 4) "None".toList ∧
    (9 ≤ w - 2 → Reads (screen rate size w h now st volume) (w - 10) (h - 3) "0:00/0:00".toList) ∧
    (st.pauses = [] → Reads (screen rate size w h now st volume) 2 (h - 5) "Playing".toList) := by
  have hsm : (info rate now st).1.sample = sampleAt rate now (removeOldChunks rate now st.chunks) := by
    simp only [info]; split <;> rfl
  have hcs : currentSong (sampleAt rate now (removeOldChunks rate now st.chunks)) st.songs = none := by
    simp only [currentSong, List.find?_eq_none, List.mem_reverse]
    intro m hm
    have := hn m hm
    rw [hsm] at this
    simp; omega
  have hs : (info rate now st).1.song = none := by
    rw [← hcs]; simp only [info]; split <;> rfl
  have key : (info rate now st).1.timeInSong = 0 ∧ (info rate now st).1.songLength = 0 := by
    simp only [info]
    rw [hcs, if_neg (by simp [songStart])]
    exact ⟨rfl, rfl⟩
  have hv : (viewOf (info rate now st).1 volume).title = [] ∧ (viewOf (info rate now st).1 volume).filename = "None".toList ∧
      (viewOf (info rate now st).1 volume).artist = [] := by
    simp [viewOf, hs, noSong]
  have rd : ∀ (x y : Int) (text : List Char), Ascii text →
      (∀ (i : Nat) (hi : i < text.length), cell (screen rate size w h now st volume) (x + i) y = some text[i]) →
      Reads (screen rate size w h now st volume) x y text := by
    intro x y text ha hh k hk
    rw [byteLen_ascii (fun c hc => ha c (List.mem_of_mem_take hc)), List.length_take, Nat.min_eq_left (by omega)]
    exact hh k hk
  refine ⟨?_, ?_, ?_⟩
  · intro i hi hfit
    exact C68_title size w h hw (viewOf (info rate now st).1 volume) "None".toList (.inr ⟨hv.1, hv.2.1.symm⟩) i hi _ rfl (by omega)
  · intro hroom
    refine rd _ _ _ (by unfold Ascii; decide) ?_
    intro i hi
    have h2 := C68_time size w h hw (viewOf (info rate now st).1 volume) "0:00/0:00".toList (by
      show _ = fmtDuration (info rate now st).1.timeInSong ++ '/' :: fmtDuration (info rate now st).1.songLength
      rw [key.1, key.2, fmt_zero]; rfl) _ rfl (by
      rw [hv.2.2, if_pos rfl]
      have e9 : ("0:00/0:00".toList).length = 9 := rfl
      have e0 : byteLen [] = 0 := rfl
      rw [e9, e0]; omega) i hi
    have e9 : ("0:00/0:00".toList).length = 9 := rfl
    rw [e9, show w - 1 - ((9 : Nat) : Int) + i = w - 10 + i by omega] at h2
    exact h2
  · intro hp
    refine rd _ _ _ (by unfold Ascii; decide) ?_
    intro i hi
    refine C68_status size w h (viewOf (info rate now st).1 volume) i _ ?_ hi
    have : (info rate now st).1.playing = true := by
      simp only [info, hp, hcs, removeOldPauses, List.drop_nil, pausesInCurrentSong, List.foldl_nil]
      split <;> rfl
    show _ = if (info rate now st).1.playing = true then _ else _
    rw [this]; rfl

/-- Non-vacuity: nothing has arrived; or a song is announced whose first sample is still to come. -/
example : (∀ m ∈ (⟨[], [], []⟩ : State Desc).songs, (info 1000 5 (⟨[], [], []⟩ : State Desc)).1.sample ≤ m.startIndex) ∧
    (∀ m ∈ (⟨[⟨noSong, 10, 3⟩], [⟨0, 0, 100⟩], []⟩ : State Desc).songs,
      (info 1000 5000000 (⟨[⟨noSong, 10, 3⟩], [⟨0, 0, 100⟩], []⟩ : State Desc)).1.sample ≤ m.startIndex) := by
  constructor
  · simp
  · intro m hm
    rw [List.mem_singleton.1 hm]
    decide

/-! ## A case -/

/-- Two songs; the second has a title, an artist and a line of lyrics. -/
def demoEnv : Env :=
  { file := fun p => if p = enc ['b'] then some [1] else if p = enc "b.json".toList then some [2] else none
    join := fun _ p => p
    json := fun f => if f = [2] then some [[⟨1, enc ['l', 'a']⟩]] else none
    tags := fun f => if f = [1] then some ⟨enc ['T', 'ü'], enc ['A'], []⟩ else none
    audioDir := [] }

/-- What is known of them. -/
def demoDesc (e : Nat × String × Nat) : Desc :=
  if e.2.1 = "b" then ⟨['b'], ['T', 'ü'], ['A'], [], [[⟨1, ['l', 'a']⟩]]⟩ else ⟨['a'], [], [], [], []⟩

/-- What an infoer receives while `twoSongs` is streamed. -/
def demoEvs : List (Ev Desc) :=
  [.song (asSong demoDesc (4, "b", 3)), .song (asSong demoDesc (0, "a", 3)), .chunk ⟨0, 0, 100⟩]

/-- The infoer's state then. -/
def demoState : State Desc := ⟨[asSong demoDesc (0, "a", 3), asSong demoDesc (4, "b", 3)], [⟨0, 0, 100⟩], []⟩

/-- Non-vacuity of C113: position 6 is inside the second song, which started at 4; two samples of it were streamed. -/
example : ∃ s : St Unit, Watching tinyCfg s ["a", "b"] twoSongs demoDesc 1000 demoEvs 6000000 demoState [] 6 ∧
    Delivered demoEnv s.news demoDesc ∧ SongOf s (4, 3) (4, "b", 3) ∧ played s (4, "b", 3) 6 = 2 ∧
    Known demoEnv (UInt64.ofNat 4) (enc "b".toList) (Int64.ofNat 3)
      ⟨enc ['b'], 4, 3, [[⟨1, enc ['l', 'a']⟩]], ⟨enc ['T', 'ü'], enc ['A'], []⟩⟩ := by
  refine ⟨_, ⟨by decide, ?_, rfl, ?_, ?_, ?_, ?_, ?_, ?_, ?_, ?_, ?_, ?_, ?_, ?_, ?_⟩, ?_, ?_, ?_, ?_⟩
  · unfold twoSongs
    repeat' first
      | exact trivial
      | (refine ⟨rfl, ?_⟩; intro s1 h; injection h with h; subst h)
  · exact .song (s1 := ⟨[asSong demoDesc (4, "b", 3)], [], []⟩) ⟨⟨.refl _, by simp⟩, rfl, rfl⟩ <|
      .song (s1 := ⟨[asSong demoDesc (0, "a", 3), asSong demoDesc (4, "b", 3)], [], []⟩)
        ⟨⟨List.Perm.swap _ _ _, by simp [asSong]⟩, rfl, rfl⟩ <|
      .chunk (s1 := demoState) ⟨⟨.refl _, by simp [demoState]⟩, rfl, rfl⟩ <| .nil _
  · intro x hx
    simp [demoEvs, songsOf] at hx
    rcases hx with rfl | rfl
    · exact List.mem_map.2 ⟨(4, "b", 3), by decide, rfl⟩
    · exact List.mem_map.2 ⟨(0, "a", 3), by decide, rfl⟩
  · simp [demoEvs, songsOf, asSong]
  · simp [demoEvs, pausesOf]
  · simp [demoEvs, pausesOf]
  · simp [demoEvs, chunksOf]
  · simp [demoEvs, queriesOf]
  · simp
  · simp
  · decide
  · decide
  · intro e he _
    have : e = (0, "a", 3) ∨ e = (4, "b", 3) := by simpa [init, bufSize, tinyCfg] using he
    rcases this with rfl | rfl <;> simp [demoEvs, songsOf]
  · intro p hp
    exact absurd hp (by decide +revert)
  · intro e he
    have : e = (0, "a", 3) ∨ e = (4, "b", 3) := by simpa [init, bufSize, tinyCfg] using he
    rcases this with rfl | rfl
    · exact ⟨by decide, by decide, by decide, by decide, by decide⟩
    · exact ⟨by decide, by decide, by decide, by decide, by decide⟩
  · exact ⟨by decide, by decide, by decide, by decide⟩
  · decide
  · exact ⟨rfl, rfl, rfl, .inl ⟨[2], by decide, by decide⟩, .inl ⟨[1], by decide, by decide⟩⟩

end MS.Screen
