import Verif.Props.PauseRace
import Verif.Props.EndToEnd
/-!
# Property C139: the play state shown after pauses and resumes that raced with the streaming loop
-/
set_option linter.unusedSimpArgs false
set_option linter.unusedVariables false
namespace MS.ShownState
open MS.StreamLoop MS.Infoer MS.Spec MS.EndToEnd

variable {α : Type}

/-- Specification: an infoer that watches the server: what it received, each announcement of the server at most once and in any order,
and everything announced for indices below the position `n` it shows; redraws at nondecreasing times, positions that do not go back.
`o` is what it shows at `now`. -/
structure Watches {σ : Type} (s : St α) (d : Nat × String × Nat → σ) (rate : Nat) (evs : List (Ev σ)) (now : Int)
    (outs : List (PlaybackInfo σ)) (o : PlaybackInfo σ) (n : Nat) : Prop where
  run : ∃ st, Run rate ⟨[], [], []⟩ (evs ++ [.query now]) (outs ++ [o]) st
  songs_in : ∀ x ∈ songsOf evs, x ∈ s.news.map (asSong d)
  songs_once : (songsOf evs).Nodup
  pauses_in : ∀ x ∈ pausesOf evs, x ∈ s.pauses.map asToggle
  pauses_once : (pausesOf evs).Nodup
  chunks_once : (chunksOf evs).Pairwise (fun a b => a.startIndex ≠ b.startIndex)
  times : (queriesOf evs ++ [now]).Pairwise (· ≤ ·)
  range : ∀ x ∈ outs ++ [o], 0 ≤ x.sample ∧ x.sample < 2 ^ 63
  forward : (((outs ++ [o]).map (·.sample)).filter (· ≠ 0)).Pairwise (· ≤ ·)
  here : o.sample = n
  songs_arrived : ∀ e ∈ s.news, e.1 < n → asSong d e ∈ songsOf evs
  pauses_arrived : ∀ p ∈ s.pauses, p.2 < n → asToggle p ∈ pausesOf evs

/-- C139, whatever races there have been: at a position inside a block the infoer shows the song the block belongs to, the play state last
announced for the sample before, and as time in song the number of samples of the song announced as playing. -/
theorem C139_shows_announced (c : Cfg α) (hb : 0 < c.brk) (songs : List String) (acts : List Act) (s : St α) (h : run c (init songs) acts = some s)
    {σ : Type} (d : Nat × String × Nat → σ) (rate : Nat) (evs : List (Ev σ)) (now : Int) (outs : List (PlaybackInfo σ)) (o : PlaybackInfo σ) (n : Nat)
    (W : Watches s d rate evs now outs o n) (b : Nat × Nat) (hbm : b ∈ s.blocks) (hb1 : b.1 < n) (hb2 : n ≤ b.1 + b.2) :
    ∃ e ∈ s.news, e.1 ≤ b.1 ∧ (∀ e' ∈ s.news, e'.1 ≤ e.1 ∨ b.1 + b.2 ≤ e'.1) ∧ o.song = some (asSong d e) ∧
      o.playing = playingAt s.pauses (n - 1) ∧
      (e.1 ≠ 0 → o.timeInSong = (((List.range' e.1 (n - e.1)).countP (fun k => playingAt s.pauses k) : Nat) * second) / rate) := by
  obtain ⟨⟨st, hr⟩, hs1, hs2, hp1, hp2, hdc, hq, hbd, hfw, hn, hs3, hp3⟩ := W
  have tog := togInv_run hb songs acts s h
  obtain ⟨nw1, nw2⟩ := C09_announcements_increasing c (Or.inl hb) songs acts s h
  obtain ⟨-, -, bl, blk, -⟩ := blockInv_run songs acts s h
  have ds : (songsOf evs).Pairwise (fun a b => a.startIndex ≠ b.startIndex) := by
    refine hs2.imp_of_mem ?_
    intro x y hx hy hxy e
    obtain ⟨p, hp, rfl⟩ := List.mem_map.1 (hs1 x hx)
    obtain ⟨q, hq, rfl⟩ := List.mem_map.1 (hs1 y hy)
    apply hxy
    rw [eq_of_key nw1 hp hq e]
  have dp : (pausesOf evs).Pairwise (fun a b => a.toggleIndex ≠ b.toggleIndex) := by
    refine hp2.imp_of_mem ?_
    intro x y hx hy hxy e
    obtain ⟨p, hp, rfl⟩ := List.mem_map.1 (hp1 x hx)
    obtain ⟨q, hq, rfl⟩ := List.mem_map.1 (hp1 y hy)
    apply hxy
    rw [eq_of_key tog.1 hp hq e]
  obtain ⟨full, f1, f2, f3, f4, ho, hi⟩ := last_display rate evs now st outs o ds hdc dp hq hr hbd hfw
  obtain ⟨e, hem, heb, hcov, hother⟩ := blk b hbm
  have hn63 : n < 2 ^ 63 := by have := (hbd o (by simp)).2; rw [hn] at this; omega
  have hbo := bl b hbm
  have hsmp : (info rate now full).1.sample = n := by rw [hi, ← ho, hn]
  have hif : (info rate now full).1 = o := by rw [hi, ho]
  -- the song
  have hsong : o.song = some (asSong d e) := by
    have hcur : (ideal rate now full).song = currentSong (idealSample rate now full.chunks) full.songs := by
      simp only [ideal, idealAt]; split <;> rfl
    have hsn : idealSample rate now full.chunks = n := by rw [← sample_ideal (σ := σ) rate now full, ← ho, hn]
    rw [ho, hcur, hsn]
    have hle : full.songs.Pairwise (fun a b => a.startIndex ≤ b.startIndex) := f2.imp (fun h => Nat.le_of_lt h)
    have hefull : asSong d e ∈ full.songs := f1.symm.subset (hs3 e hem (by omega))
    cases hc : currentSong (n : Int) full.songs with
    | none =>
      simp only [currentSong, List.find?_eq_none, List.mem_reverse] at hc
      have := hc _ hefull
      simp [asSong] at this; omega
    | some x =>
      obtain ⟨x1, x2, x3⟩ := find_reverse_sorted (n : Int) full.songs hle x hc
      obtain ⟨e', he', rfl⟩ := List.mem_map.1 (hs1 x (f1.subset x1))
      have hxe := x3 _ hefull (by simp [asSong]; omega)
      have hx2 : e'.1 < n := by simp [asSong] at x2; exact x2
      have hxe : e.1 ≤ e'.1 := hxe
      have : e'.1 = e.1 := by
        rcases hother e' he' with h | h <;> omega
      rw [eq_of_key nw1 he' hem this]
  have hchrono : Chrono full.pauses := chrono_of_lt f4
  have hplay : ∀ k, k < n → Infoer.playingAt full.pauses k = MS.Spec.playingAt s.pauses k := fun k hk =>
    playingAt_arrived tog.1 f4 (n := n) (fun t ht => hp1 t (f3.subset ht)) (fun p hp hpn => f3.symm.subset (hp3 p hp hpn)) k hk
  refine ⟨e, hem, heb, hother, hsong, ?_, ?_⟩
  · have hpl : o.playing = Infoer.playingAt full.pauses (n - 1) := by
      have hst : songStart (some (asSong d e)) ≤ n := by simp [songStart, asSong]; omega
      have h43 := C43_chrono full.pauses hchrono (songStart (some (asSong d e))) n hst hn63
      have hpi : (ideal rate now full).playing =
          (pausesInCurrentSong (idealSample rate now full.chunks) (songStart (ideal rate now full).song) full.pauses).2 := by
        simp only [ideal, idealAt]; split <;> rfl
      rw [← ho, hsong] at hpi
      have hsn : idealSample rate now full.chunks = n := by rw [← sample_ideal (σ := σ) rate now full, ← ho, hn]
      rw [hpi, hsn, h43]
      simp only [lastState, Infoer.playingAt]
      congr 3
      apply List.filter_congr
      intro t _
      simp
      omega
    rw [hpl, hplay (n - 1) (by omega)]

  · intro h0
    obtain ⟨t1, -, -⟩ := C60_time_in_song_partial rate now full n hn63 hsmp hchrono (asSong d e) (by rw [hif]; exact hsong) h0
    rw [hif] at t1
    rw [t1]
    simp only [asSong]
    congr 3
    apply List.countP_congr
    intro k hk
    rw [List.mem_range'_1] at hk
    rw [hplay k (by omega)]

theorem run_snd {c : Cfg α} : ∀ {as bs : List Act} {s s1 s2 : St α}, run c s as = some s1 → run c s1 bs = some s2 →
    run c s (as ++ bs) = some s2
  | [], bs, s, s1, s2, h, h2 => by simp only [run, Option.some.injEq] at h; subst h; exact h2
  | a :: as, bs, s, s1, s2, h, h2 => by
    simp only [run, List.cons_append] at h ⊢
    split at h
    · exact run_snd h h2
    · cases h

/-- C139, the part that holds: whatever pauses and resumes there have been, in whatever race with the loop, but none of them between the
two statements that store and announce a new state: once they stop, an infoer shows at positions in all later blocks "playing" exactly
if the sample there is music, and the song the block belongs to, whatever jumps and edits come.
Missing from the full property: schedules that are not calm (`C139_stuck`). -/
theorem C139_recovers_partial (c : Cfg α) (hb : 0 < c.brk) (songs : List String) (acts later : List Act) (s s' : St α)
    (h : run c (init songs) acts = some s) (hc : Calm c (init songs) acts)
    (hpc : ∀ r, s.pc ≠ .h2 r ∧ s.pc ≠ .h3 r ∧ s.pc ≠ .body r)
    (hl : ∀ a ∈ later, ∀ b, a ≠ .setPlaying b) (h' : run c s later = some s')
    {σ : Type} (d : Nat × String × Nat → σ) (rate : Nat) (evs : List (Ev σ)) (now : Int) (outs : List (PlaybackInfo σ)) (o : PlaybackInfo σ) (n : Nat)
    (W : Watches s' d rate evs now outs o n) (b : Nat × Nat) (hbm : b ∈ s'.blocks) (hlate : s.out.length ≤ b.1) (hb1 : b.1 < n) (hb2 : n ≤ b.1 + b.2) :
    (o.playing = true ↔ ∃ a, s'.out[n - 1]? = some (some a)) ∧
    ∃ e ∈ s'.news, e.1 ≤ b.1 ∧ (∀ e' ∈ s'.news, e'.1 ≤ e.1 ∨ b.1 + b.2 ≤ e'.1) ∧ o.song = some (asSong d e) := by
  obtain ⟨e, e1, e2, e3, e4, e5, -⟩ := C139_shows_announced c hb songs _ s' (run_snd h h') d rate evs now outs o n W b hbm hb1 hb2
  obtain ⟨-, hx⟩ := C97_catches_up_partial c songs acts later s s' h hc hpc hl h'
  refine ⟨?_, e, e1, e2, e3, e4⟩
  rw [e5]
  exact (hx b hbm hlate (n - 1) (by omega) (by omega)).symm

/-- C139 fails after a race: a resume and a pause (or a pause and a resume) around the announcement of a change. As long as nobody pauses or
resumes again, infoers show at all positions in later blocks "playing" while the sample there is silence, or "paused" while it is music;
and in the first case the time shown goes on, although no sample of the song is heard. -/
theorem C139_stuck (c : Cfg α) (hb : 0 < c.brk) (songs : List String) (acts later : List Act) (s s' : St α) (r : List α)
    (h : run c (init songs) acts = some s) (hpc : s.pc = .h3 r) (hp : s.playing = s.playingLast)
    (hl : ∀ a ∈ later, ∀ b, a ≠ .setPlaying b)
    (h' : run c s ([.setPlaying (!s.playing), .loop, .setPlaying s.playing] ++ later) = some s')
    {σ : Type} (d : Nat × String × Nat → σ) (rate : Nat) (evs : List (Ev σ)) (now : Int) (outs : List (PlaybackInfo σ)) (o : PlaybackInfo σ) (n : Nat)
    (W : Watches s' d rate evs now outs o n) (b : Nat × Nat) (hbm : b ∈ s'.blocks) (hlate : s.out.length ≤ b.1) (hb1 : b.1 < n) (hb2 : n ≤ b.1 + b.2) :
    (o.playing = false ↔ ∃ a, s'.out[n - 1]? = some (some a)) ∧
    ∃ e ∈ s'.news, e.1 ≤ b.1 ∧ (∀ e' ∈ s'.news, e'.1 ≤ e.1 ∨ b.1 + b.2 ≤ e'.1) ∧ o.song = some (asSong d e) ∧
      (s.playing = false → e.1 ≠ 0 → (((n - max e.1 s.out.length : Nat) : Int) * second) / rate ≤ o.timeInSong) := by
  obtain ⟨e, e1, e2, e3, e4, e5, e6⟩ := C139_shows_announced c hb songs _ s' (run_snd h h') d rate evs now outs o n W b hbm hb1 hb2
  obtain ⟨-, hps, hx⟩ := C97_stuck c songs acts later s s' r h hpc hp hl h'
  refine ⟨?_, e, e1, e2, e3, e4, ?_⟩
  · rw [e5]
    exact (hx b hbm hlate (n - 1) (by omega) (by omega)).symm
  · intro hpl h0
    rw [e6 h0]
    have hle := (C10_indices_ordered c songs acts s h).2
    have hall : ∀ k, s.out.length ≤ k → playingAt s'.pauses k = true := by
      intro k hk
      rw [StreamLoop.playingAt_all _ k, hps]
      · simp [announced, hpl]
      · intro q hq
        rw [hps] at hq
        rcases List.mem_append.1 hq with hq | hq
        · have := hle q hq; omega
        · simp at hq; subst hq; simpa using hk
    have hcount : n - max e.1 s.out.length ≤ (List.range' e.1 (n - e.1)).countP (fun k => playingAt s'.pauses k) := by
      have hsub : (List.range' (max e.1 s.out.length) (n - max e.1 s.out.length)).Sublist (List.range' e.1 (n - e.1)) := by
        have : List.range' e.1 (n - e.1) = List.range' e.1 (max e.1 s.out.length - e.1) ++
            List.range' (max e.1 s.out.length) (n - max e.1 s.out.length) := by
          have := List.range'_append (s := e.1) (m := max e.1 s.out.length - e.1) (n := n - max e.1 s.out.length) (step := 1)
          rw [Nat.one_mul] at this
          rw [show e.1 + (max e.1 s.out.length - e.1) = max e.1 s.out.length by omega] at this
          rw [this]
          congr 1
          omega
        rw [this]
        exact List.sublist_append_right _ _
      have h1 := hsub.countP_le (p := fun k => playingAt s'.pauses k)
      have h2 : (List.range' (max e.1 s.out.length) (n - max e.1 s.out.length)).countP (fun k => playingAt s'.pauses k) =
          n - max e.1 s.out.length := by
        rw [List.countP_eq_length.2 (fun k hk => hall k (by rw [List.mem_range'_1] at hk; omega)), List.length_range']
      omega
    have hmul : ((n - max e.1 s.out.length : Nat) : Int) * second ≤
        ((List.range' e.1 (n - e.1)).countP (fun k => playingAt s'.pauses k) : Nat) * second :=
      Int.mul_le_mul_of_nonneg_right (by omega) (by decide)
    rcases Nat.eq_zero_or_pos rate with h | h
    · subst h; simp
    · exact Int.ediv_le_ediv (by omega) hmul

/-- What an infoer has received of the run of `C97_refuted`: the song, the (wrong) announcement "playing", and a chunk. -/
def exEvs : List (Ev String) := [.song ⟨"a", 0, 1200⟩, .pause ⟨true, 0⟩, .chunk ⟨0, 0, 1536⟩]

theorem exEvs_run (now : Int) : ∃ st, Run 1000 ⟨[], [], []⟩ (exEvs ++ [.query now])
    [(info 1000 now ⟨[⟨"a", 0, 1200⟩], [⟨0, 0, 1536⟩], [⟨true, 0⟩]⟩).1] st :=
  ⟨_, .song (s1 := ⟨[⟨"a", 0, 1200⟩], [], []⟩) ⟨⟨.refl _, by simp⟩, rfl, rfl⟩ <|
    .pause (s1 := ⟨[⟨"a", 0, 1200⟩], [], [⟨true, 0⟩]⟩) ⟨⟨.refl _, by simp⟩, rfl, rfl⟩ <|
    .chunk (s1 := ⟨[⟨"a", 0, 1200⟩], [⟨0, 0, 1536⟩], [⟨true, 0⟩]⟩) ⟨⟨.refl _, by simp⟩, rfl, rfl⟩ <|
    .query <| .nil _⟩

set_option maxRecDepth 20000 in
/-- Non-vacuity of C139_stuck: the run of `C97_refuted`, watched at position 1500: "playing" is shown, the sample is silence. -/
theorem ex_stuck : ∃ (s s' : St Unit) (o : PlaybackInfo String), run demoCfg (init ["a"]) [.loop, .loop, .loop, .loop, .loop] = some s ∧
      s.pc = .h3 (List.replicate 1200 ()) ∧ s.playing = s.playingLast ∧
      run demoCfg s ([.setPlaying true, .loop, .setPlaying false] ++ [.loop, .loop, .loop, .loop, .loop, .loop, .loop]) = some s' ∧
      Watches s' (fun e => e.2.1) 1000 exEvs 1500000000 [] o 1500 ∧ (1024, 512) ∈ s'.blocks ∧ s.out.length ≤ 1024 ∧
      o.playing = true ∧ s'.out[1499]? = some none := by
  refine ⟨_, _, (info 1000 1500000000 ⟨[⟨"a", 0, 1200⟩], [⟨0, 0, 1536⟩], [⟨true, 0⟩]⟩).1, rfl, rfl, rfl, rfl,
    ⟨exEvs_run 1500000000, ?_, ?_, ?_, ?_, ?_, ?_, ?_, ?_, ?_, ?_, ?_⟩, ?_, ?_, ?_, rfl⟩
  · intro x hx
    simp [exEvs, songsOf] at hx
    subst hx
    exact List.mem_map.2 ⟨(0, "a", 1200), List.mem_singleton.2 rfl, rfl⟩
  · simp [exEvs, songsOf]
  · intro x hx
    simp [exEvs, pausesOf] at hx
    subst hx
    exact List.mem_map.2 ⟨(true, 0), List.mem_singleton.2 rfl, rfl⟩
  · simp [exEvs, pausesOf]
  · simp [exEvs, chunksOf]
  · simp [exEvs, queriesOf]
  · decide
  · decide
  · decide
  · intro e he _
    have : e = (0, "a", 1200) := List.mem_singleton.1 he
    subst this
    simp [exEvs, songsOf, asSong]
  · intro p hp _
    have : p = (true, 0) := List.mem_singleton.1 hp
    subst this
    simp [exEvs, pausesOf, asToggle]
  · exact List.mem_of_getElem? (i := 2) rfl
  · exact Nat.zero_le _
  · decide

/-- What an infoer has received of the run below. -/
def exEvs2 : List (Ev String) := [.song ⟨"a", 0, 1200⟩, .pause ⟨false, 512⟩, .chunk ⟨0, 0, 1536⟩]

theorem exEvs2_run (now : Int) : ∃ st, Run 1000 ⟨[], [], []⟩ (exEvs2 ++ [.query now])
    [(info 1000 now ⟨[⟨"a", 0, 1200⟩], [⟨0, 0, 1536⟩], [⟨false, 512⟩]⟩).1] st :=
  ⟨_, .song (s1 := ⟨[⟨"a", 0, 1200⟩], [], []⟩) ⟨⟨.refl _, by simp⟩, rfl, rfl⟩ <|
    .pause (s1 := ⟨[⟨"a", 0, 1200⟩], [], [⟨false, 512⟩]⟩) ⟨⟨.refl _, by simp⟩, rfl, rfl⟩ <|
    .chunk (s1 := ⟨[⟨"a", 0, 1200⟩], [⟨0, 0, 1536⟩], [⟨false, 512⟩]⟩) ⟨⟨.refl _, by simp⟩, rfl, rfl⟩ <|
    .query <| .nil _⟩

set_option maxRecDepth 20000 in
/-- Non-vacuity of C139_recovers_partial: a pause falls between the announcement and the block; a position of the next block. -/
theorem ex_recovers : ∃ (s s' : St Unit) (o : PlaybackInfo String),
      run demoCfg (init ["a"]) [.setPlaying true, .loop, .loop, .loop, .loop, .setPlaying false, .loop] = some s ∧
      Calm demoCfg (init ["a"]) [.setPlaying true, .loop, .loop, .loop, .loop, .setPlaying false, .loop] ∧
      s.pc = .chk (List.replicate 1200 ()) 512 true ∧
      run demoCfg s [.loop, .loop, .loop, .loop, .loop] = some s' ∧
      Watches s' (fun e => e.2.1) 1000 exEvs2 800000000 [] o 800 ∧ (512, 512) ∈ s'.blocks ∧ s.out.length ≤ 512 ∧
      o.playing = false ∧ s'.out[799]? = some none := by
  refine ⟨_, _, (info 1000 800000000 ⟨[⟨"a", 0, 1200⟩], [⟨0, 0, 1536⟩], [⟨false, 512⟩]⟩).1, rfl, ?_, rfl, rfl,
    ⟨exEvs2_run 800000000, ?_, ?_, ?_, ?_, ?_, ?_, ?_, ?_, ?_, ?_, ?_⟩, ?_, ?_, ?_, rfl⟩
  · repeat' first
      | exact trivial
      | (refine ⟨rfl, ?_⟩; intro s1 h; injection h with h; subst h)
  · intro x hx
    simp [exEvs2, songsOf] at hx
    subst hx
    exact List.mem_map.2 ⟨(0, "a", 1200), List.mem_singleton.2 rfl, rfl⟩
  · simp [exEvs2, songsOf]
  · intro x hx
    simp [exEvs2, pausesOf] at hx
    subst hx
    exact List.mem_map.2 ⟨(false, 512), List.mem_singleton.2 rfl, rfl⟩
  · simp [exEvs2, pausesOf]
  · simp [exEvs2, chunksOf]
  · simp [exEvs2, queriesOf]
  · decide
  · decide
  · decide
  · intro e he _
    have : e = (0, "a", 1200) := List.mem_singleton.1 he
    subst this
    simp [exEvs2, songsOf, asSong]
  · intro p hp _
    have : p = (false, 512) := List.mem_singleton.1 hp
    subst this
    simp [exEvs2, pausesOf, asToggle]
  · exact List.mem_of_getElem? (i := 1) rfl
  · exact Nat.le_of_eq rfl
  · decide

end MS.ShownState
