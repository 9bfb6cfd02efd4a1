import Verif.Props.Queued
import Verif.Props.EndToEnd
/-!
# C133: what is done is shown in time

The playlist sample by sample (`MS.PlaylistRun`), the ticker and stamps of `streamMusic`, and an infoer (`MS.Infoer`) together: what an
infoer shows, and from when on, after a pause, a resume, a jump, and after queueing a song while nothing plays.
-/
namespace MS.ShownInTime
open MS.StreamLoop (Cfg Pc Playable)
open MS.Streamer (samplesDuration dur_nonneg dur_add dur_mono)
open MS.PlaylistRun MS.PauseHeard MS.Queued
open MS.Infoer (Ev PlaybackInfo State songsOf pausesOf chunksOf queriesOf)
open MS.EndToEnd (asSong asToggle)

variable {β : Type}

/-- Specification: no pause or resume falls between the reads of the play state for one block (the race of C10). -/
def NoRace (nan : β) (c : Cfg (β × β)) : St β → List Act → Prop
  | _, [] => True
  | s, a :: as =>
    (∀ b, a = .setPlaying b → ∀ r, s.pl.pc ≠ .h2 r ∧ s.pl.pc ≠ .h3 r ∧ s.pl.pc ≠ .body r) ∧
    ∀ t, step nan c s a = some t → NoRace nan c t as

/-- Specification: an infoer that watches the server: what it received, each announcement of the server at most once and in any order,
and everything announced for indices below the position `n` it shows; redraws at nondecreasing times, positions that do not go back.
`o` is what it shows at `now`. -/
structure Viewer {σ : Type} (s : St β) (d : Nat × String × Nat → σ) (rate : Nat) (evs : List (Ev σ)) (now : Int)
    (outs : List (PlaybackInfo σ)) (o : PlaybackInfo σ) (n : Nat) : Prop where
  run : ∃ st, Infoer.Run rate ⟨[], [], []⟩ (evs ++ [.query now]) (outs ++ [o]) st
  songs_in : ∀ x ∈ songsOf evs, x ∈ s.pl.news.map (asSong d)
  songs_once : (songsOf evs).Nodup
  pauses_in : ∀ x ∈ pausesOf evs, x ∈ s.pl.pauses.map asToggle
  pauses_once : (pausesOf evs).Nodup
  chunks_once : (chunksOf evs).Pairwise (fun a b => a.startIndex ≠ b.startIndex)
  times : (queriesOf evs ++ [now]).Pairwise (· ≤ ·)
  range : ∀ x ∈ outs ++ [o], 0 ≤ x.sample ∧ x.sample < 2 ^ 63
  forward : (((outs ++ [o]).map (·.sample)).filter (· ≠ 0)).Pairwise (· ≤ ·)
  here : o.sample = n
  songs_arrived : ∀ e ∈ s.pl.news, e.1 < n → asSong d e ∈ songsOf evs
  pauses_arrived : ∀ p ∈ s.pl.pauses, p.2 < n → asToggle p ∈ pausesOf evs

/-- Specification: position `n` is inside a block of a song. -/
def InSong (s : St β) (n : Nat) : Prop := ∃ b ∈ s.pl.blocks, b.1 < n ∧ n ≤ b.1 + b.2

/-- Specification: `n` is the position an infoer computes at `now` from the chunk being played (C41), the first chunk being due at
`first`. -/
def PositionAt (first : Int) (size rate : Nat) (now : Int) (n : Nat) : Prop :=
  ∃ m : Nat, first + m * StreamMusic.chunkTime size rate < now ∧ now ≤ first + (m + 1) * StreamMusic.chunkTime size rate ∧
    (n : Int) = m * size + ((now - (first + m * StreamMusic.chunkTime size rate)) * rate) / 1000000000

/-! ## The histories correspond -/

theorem run_quiet {nan : β} {cap : Nat} {c : Cfg (β × β)} (as : List Act) {s s' : St β} (h : Inv nan cap s)
    (hq : NoRace nan c s as) (e : run nan c s as = some s') :
    ∃ bs, StreamLoop.run c (whole s) bs = some (whole s') ∧ StreamLoop.Quiet c (whole s) bs := by
  induction as generalizing s with
  | nil => cases e; exact ⟨[], rfl, trivial⟩
  | cons a as ih =>
    simp only [run] at e
    split at e
    · rename_i t ht
      obtain ⟨h1, h2⟩ := step_sim h ht
      obtain ⟨bs, i2, i3⟩ := ih h1 (hq.2 t ht) e
      rcases h2 with ⟨h2, h3⟩ | ⟨b, h2, h3⟩
      · exact ⟨bs, h2 ▸ i2, h2 ▸ i3⟩
      · refine ⟨b :: bs, by simp [StreamLoop.run, h2, i2], ?_, ?_⟩
        · cases b <;> try rfl
          rename_i b
          have ha : a = .setPlaying b := by cases a <;> simp [command, commandOf] at h3; subst h3; rfl
          have hw : (whole s).pc = s.pl.pc := rfl
          have hr := hq.1 b ha
          cases hpc : s.pl.pc <;> simp only [StreamLoop.racy, hw, hpc] <;> rename_i r
          · exact absurd hpc (hr r).1
          · exact absurd hpc (hr r).2.1
          · exact absurd hpc (hr r).2.2
        · intro t' ht'
          rw [h2] at ht'
          cases ht'
          exact i3
    · cases e

theorem run_app {nan : β} {c : Cfg (β × β)} (as as' : List Act) {s s1 s' : St β} (h : run nan c s as = some s1)
    (h' : run nan c s1 as' = some s') : run nan c s (as ++ as') = some s' := by
  induction as generalizing s with
  | nil => cases h; exact h'
  | cons a as ih =>
    simp only [run, List.cons_append] at h ⊢
    split at h
    · exact ih h
    · cases h

/-- What is shown inside a song. -/
theorem shown {σ : Type} {nan : β} {c : Cfg (β × β)} {cap : Nat} {songs : List String} {as : List Act} {s : St β} (hb : 0 < c.brk)
    (h : run nan c (init cap songs) as = some s) (hq : NoRace nan c (init cap songs) as) {d : Nat × String × Nat → σ} {rate : Nat}
    {evs : List (Ev σ)} {now : Int} {outs : List (PlaybackInfo σ)} {o : PlaybackInfo σ} {n : Nat} (V : Viewer s d rate evs now outs o n)
    (hn : InSong s n) :
    (o.playing = true ↔ ∃ a, (stream s)[n - 1]? = some (some a)) ∧ 0 < n ∧ n ≤ (stream s).length ∧
    ∃ b ∈ s.pl.blocks, b.1 < n ∧ n ≤ b.1 + b.2 ∧ ∃ e ∈ s.pl.news, e.1 ≤ b.1 ∧ (∀ e' ∈ s.pl.news, e'.1 ≤ e.1 ∨ b.1 + b.2 ≤ e'.1) ∧
      o.song = some (asSong d e) := by
  obtain ⟨bs, h1, h2⟩ := run_quiet as (inv_init nan cap songs) hq h
  obtain ⟨b, hbm, hb1, hb2⟩ := hn
  obtain ⟨st, hr⟩ := V.run
  have hw0 : whole (init cap songs : St β) = StreamLoop.init songs := by simp [whole, stream, init, StreamLoop.init]
  rw [hw0] at h1 h2
  obtain ⟨-, -, bl, -, -⟩ := EndToEnd.blockInv_run songs bs _ h1
  have hle := bl b hbm
  obtain ⟨e, e1, e2, e3, e4, _, e5⟩ := EndToEnd.C46_displayed_time_partial c hb songs bs (whole s) h2 h1 d rate evs now st outs o hr V.songs_in
    V.songs_once V.pauses_in V.pauses_once V.chunks_once V.times V.range V.forward n V.here b hbm hb1 hb2 V.songs_arrived V.pauses_arrived
  have hlen : (whole s).out.length = (stream s).length := rfl
  exact ⟨e5, by omega, by omega, b, hbm, hb1, hb2, e, e1, e2, e3, e4⟩

/-! ## Positions and times -/

theorem mul_rate_le {size rate : Nat} (_ : 0 < rate) : ((size : Int) * 1000000000).tdiv rate * rate ≤ size * 1000000000 := by
  have h0 : (0 : Int) ≤ (size : Int) * 1000000000 := by omega
  generalize (size : Int) * 1000000000 = x at h0
  rw [Int.tdiv_eq_ediv_of_nonneg h0]
  exact Int.ediv_mul_le _ (by omega)

theorem dur_rate {rate n : Nat} (h : 0 < rate) : (n : Int) * 1000000000 < (samplesDuration rate n + 1) * rate := by
  rw [Streamer.dur_nat]
  have := Nat.lt_mul_div_succ (1000000000 * n) h
  have h2 : ((1000000000 * n : Nat) : Int) < ((rate * (1000000000 * n / rate + 1) : Nat) : Int) := by exact_mod_cast this
  rw [Int.natCast_mul rate, Int.natCast_add, Int.mul_comm (rate : Int), Int.natCast_one] at h2
  rw [Int.natCast_mul] at h2
  omega

/-- From the time `extra` samples (and one, and two nanoseconds) behind `T` on, the position shown is behind the samples begun by `T` and
`extra` more. -/
theorem position_after {P t0 T start delay : Int} {size rate extra : Nat} {ds : List Int} {s : St β} (hP : P = StreamMusic.chunkTime size rate)
    (h0 : 0 < P) (hd : ∀ d ∈ ds, 0 ≤ d) (hT : At P t0 T ds s) {now : Int} {n : Nat} (hpos : PositionAt (start + delay) size rate now n)
    (hnow : T + delay - (t0 - start) + samplesDuration rate extra + samplesDuration rate 1 + 2 ≤ now) : begun s * size + extra < n := by
  subst hP
  have hb := begun_le h0 hd hT
  obtain ⟨m, m1, m2, m3⟩ := hpos
  have hrate : 0 < rate := by
    refine Nat.pos_of_ne_zero fun hz => ?_
    subst hz
    simp [StreamMusic.chunkTime] at h0
  generalize hPe : StreamMusic.chunkTime size rate = P at *
  have hb0 : (begun s : Int) < m + 1 := by
    refine Classical.byContradiction fun hx => ?_
    have : ((m : Int) + 1) * P ≤ begun s * P := Int.mul_le_mul_of_nonneg_right (by omega) (by omega)
    have d1 := dur_nonneg rate extra
    have d2 := dur_nonneg rate 1
    omega
  obtain ⟨k, rfl⟩ : ∃ k, m = begun s + k := ⟨m - begun s, by omega⟩
  generalize hb2 : begun s = b at *
  generalize he : now - (start + delay + ((b + k : Nat) : Int) * P) = e at *
  have h1 : samplesDuration rate extra + samplesDuration rate 1 + 2 ≤ k * P + e := by
    have : ((b + k : Nat) : Int) * P = b * P + k * P := by rw [Int.natCast_add, Int.add_mul]
    omega
  have h2 : P * rate ≤ size * 1000000000 := by
    rw [← hPe]
    simp only [StreamMusic.chunkTime]
    exact mul_rate_le hrate
  have h3 : (k : Int) * P * rate ≤ k * (size * 1000000000) := by
    rw [Int.mul_assoc]
    exact Int.mul_le_mul_of_nonneg_left h2 (by omega)
  have h4 := dur_rate (n := extra) hrate
  have h5 := dur_rate (n := 1) hrate
  have h6 : (samplesDuration rate extra + samplesDuration rate 1 + 2) * rate ≤ (k * P + e) * rate :=
    Int.mul_le_mul_of_nonneg_right h1 (by omega)
  have h7 : (samplesDuration rate extra + samplesDuration rate 1 + 2) * (rate : Int) =
      (samplesDuration rate extra + 1) * rate + (samplesDuration rate 1 + 1) * rate := by
    rw [← Int.add_mul]; congr 1; omega
  rw [h7, Int.add_mul (k * P) e] at h6
  rw [Int.natCast_add, Int.add_mul] at m3
  have h8 : (k : Int) * (size * 1000000000) = k * size * 1000000000 := (Int.mul_assoc _ _ _).symm
  have h9 : (n : Int) = b * size + k * size + e * rate / 1000000000 := m3
  suffices hs : ((b * size + extra : Nat) : Int) < n from Int.ofNat_lt.mp hs
  rw [Int.natCast_add, Int.natCast_mul]
  generalize (b : Int) * size = A at *
  generalize (k : Int) * size = B at *
  generalize e * (rate : Int) = C at *
  omega

theorem increasing {nan : β} {c : Cfg (β × β)} {cap : Nat} {songs : List String} {as : List Act} {s : St β} (hb : 0 < c.brk)
    (h : run nan c (init cap songs) as = some s) :
    s.pl.news.Pairwise (fun a b => a.1 < b.1) ∧ (∀ e ∈ s.pl.news, e.1 ≤ (stream s).length) ∧
      ∀ b ∈ s.pl.blocks, b.1 + b.2 ≤ (stream s).length := by
  obtain ⟨_, bs, h1, _⟩ := run_sim as (inv_init nan cap songs) h
  have hw0 : whole (init cap songs : St β) = StreamLoop.init songs := by simp [whole, stream, init, StreamLoop.init]
  rw [hw0] at h1
  obtain ⟨-, b1, b2, -, -⟩ := EndToEnd.blockInv_run songs bs _ h1
  exact ⟨(StreamLoop.C09_announcements_increasing c (.inl hb) songs bs _ h1).1, b1, b2⟩

/-! ## Pausing -/

/-- C133, pausing: at time `T` the playlist is paused, and stays so. Whoever watches the server: from the stream delay, the time the
channels hold, a block and a sample after `T` on (and 2 ns for rounding), at a position in a song, "paused" is shown. -/
theorem C133_pause_partial {σ : Type} (nan : β) (c : Cfg (β × β)) (cap : Nat) (songs : List String) (as as' : List Act) (s s' : St β)
    (start t0 delay T : Int) (size rate : Nat) (ds : List Int) (hbrk : 0 < c.brk) (hP : 0 < StreamMusic.chunkTime size rate)
    (hd : ∀ d ∈ ds, 0 ≤ d) (h : run nan c (init cap songs) as = some s) (h' : run nan c s as' = some s')
    (hz : Asks size as) (hq : NoRace nan c (init cap songs) (as ++ as'))
    (hT : At (StreamMusic.chunkTime size rate) t0 T ds s) (hp : s.pl.playing = false) (hr : .setPlaying true ∉ as')
    (d : Nat × String × Nat → σ) (evs : List (Ev σ)) (now : Int) (outs : List (PlaybackInfo σ)) (o : PlaybackInfo σ) (n : Nat)
    (V : Viewer s' d rate evs now outs o n) (hn : InSong s' n) (hpos : PositionAt (start + delay) size rate now n)
    (hnow : T + delay - (t0 - start) + samplesDuration rate (cap + 512) + samplesDuration rate 1 + 2 ≤ now) :
    o.playing = false := by
  have h1 := (run_sim as (inv_init nan cap songs) h).1
  obtain ⟨h2, bs, h3, h4⟩ := run_sim as' h1 h'
  have z1 := sized_run as (s := init cap songs) ⟨by simp [init, Fill.init], by simp [init, Fill.init]⟩ hz h
  obtain ⟨g1, g2, g3, _⟩ := shown hbrk (run_app as as' h h') hq V hn
  have g4 := position_after rfl hP hd hT hpos hnow
  obtain ⟨X, h5, h6⟩ := quiet_run bs (s := whole s) hp (noResume h4 hr) h3
  have hlt : n - 1 < (stream s').length := by omega
  have hs : (stream s')[n - 1]? = some none := by
    have h5' : stream s' = stream s ++ X := h5
    rw [h5'] at hlt ⊢
    by_cases hc : n - 1 < (stream s).length
    · rw [List.getElem?_append_left hc]
      have hb : StreamLoop.bufSize = 512 := rfl
      exact stream_after h1 (by rw [read_begun h1 z1]; omega) hc
    · rw [List.getElem?_append_right (by omega)]
      simp at hlt
      rw [List.getElem?_eq_getElem (by omega)]
      exact congrArg some (h6 _ (List.getElem_mem _))
  cases hop : o.playing
  · rfl
  · obtain ⟨a, ha⟩ := g1.mp hop
    rw [hs] at ha
    cases ha

/-! ## Jumping -/

/-- After a jump: a block goes at most 512 samples beyond what the stream was, or belongs to a song announced since. -/
def Left (L : Nat) (news0 : List (Nat × String × Nat)) (s : StreamLoop.St (β × β)) : Prop :=
  ∃ later, s.news = news0 ++ later ∧ ∀ b ∈ s.blocks, b.1 + b.2 ≤ L + 512 ∨ ∃ e ∈ later, e.1 ≤ b.1

theorem left_step {c : Cfg (β × β)} {out0 : List (Option (β × β))} {news0 : List (Nat × String × Nat)}
    {s s' : StreamLoop.St (β × β)} {a : StreamLoop.Act} (hg : Jumped c.brk out0 news0 s) (hn : ∀ e ∈ s.news, e.1 ≤ s.out.length)
    (hl : Left out0.length news0 s) (e : StreamLoop.step c s a = some s') : Left out0.length news0 s' := by
  obtain ⟨later, l1, l2⟩ := hl
  have hb : (∃ ext, s'.news = s.news ++ ext) ∧
      (s'.blocks = s.blocks ∨ ∃ n rem, s.pc = .body rem ∧ n ≤ 512 ∧ s'.news = s.news ∧ s'.blocks = s.blocks ++ [(s.out.length, n)]) := by
    unfold StreamLoop.step at e
    split at e
    · cases e
    · cases a <;> simp only at e
      case loop =>
        unfold StreamLoop.loopStep at e
        have hbuf : StreamLoop.bufSize = 512 := rfl
        split at e <;> rename_i hpc
        case h_7 =>
          split at e <;> cases e
          · refine ⟨⟨[], by simp⟩, .inr ⟨_, _, hpc, ?_, rfl, rfl⟩⟩
            rw [← hbuf]; exact Nat.min_le_left _ _
          · exact ⟨⟨[], by simp⟩, .inr ⟨_, _, hpc, by omega, rfl, rfl⟩⟩
        case h_3 =>
          split at e <;> cases e
          · exact ⟨⟨[], by simp⟩, .inl rfl⟩
          · exact ⟨⟨_, rfl⟩, .inl rfl⟩
        all_goals
          (repeat' (first | split at e | (simp only at e; split at e))) <;> cases e <;> exact ⟨⟨[], by simp⟩, .inl rfl⟩
      case jumpToken => split at e <;> cases e; exact ⟨⟨[], by simp⟩, .inl rfl⟩
      all_goals cases e; exact ⟨⟨[], by simp⟩, .inl rfl⟩
  obtain ⟨⟨ext, x1⟩, x2⟩ := hb
  refine ⟨later ++ ext, by rw [x1, l1, List.append_assoc], ?_⟩
  have old : ∀ b ∈ s.blocks, b.1 + b.2 ≤ out0.length + 512 ∨ ∃ e ∈ later ++ ext, e.1 ≤ b.1 := by
    intro b hb
    rcases l2 b hb with h | ⟨e, h, h'⟩
    · exact .inl h
    · exact .inr ⟨e, by simp [h], h'⟩
  rcases x2 with x2 | ⟨n, rem, x2, x3, x4, x5⟩
  · rw [x2]; exact old
  · rw [x5]
    intro b hb
    rcases List.mem_append.mp hb with hb | hb
    · exact old b hb
    · simp only [List.mem_singleton] at hb
      subst hb
      rcases hg with ⟨_, _, _, g4, _⟩ | ⟨r, n', ok, g1, _⟩ | ⟨B, Y, _, _, ⟨g1, _⟩ | ⟨_, ⟨g1, _⟩ | g1⟩⟩
      · left; simp only [g4]; omega
      · rw [x2] at g1; cases g1
      · rw [x2] at g1; cases g1
      · rw [x2] at g1; simp [rest] at g1
      · right
        rw [l1, List.length_append] at g1
        cases later with
        | nil => simp at g1
        | cons f fs => exact ⟨f, by simp, hn f (by rw [l1]; simp)⟩

theorem blockInv_step {c : Cfg (β × β)} {s s' : StreamLoop.St (β × β)} {a : StreamLoop.Act} (hi : EndToEnd.BlockInv s)
    (h : StreamLoop.step c s a = some s') : EndToEnd.BlockInv s' := by
  rcases StreamLoop.step_cases h with ⟨_, h⟩ | ⟨p, _, rfl⟩ | ⟨_, _, _, rfl⟩ | ⟨b, _, rfl⟩ | ⟨l, _, rfl⟩
  · exact EndToEnd.blockInv_loop hi h
  all_goals exact hi

/-- C133, jumping: at time `T` a jump has been accepted while a song is streamed. Whoever watches the server: from the stream delay, the
time the channels hold, two blocks and a sample after `T` on, at a position in a song, the song shown is one announced after the jump. -/
theorem C133_jump_partial {σ : Type} (nan : β) (c : Cfg (β × β)) (cap : Nat) (songs : List String) (as as' : List Act) (s s' : St β)
    (start t0 delay T : Int) (size rate : Nat) (ds : List Int) (hbrk : 0 < c.brk) (hP : 0 < StreamMusic.chunkTime size rate)
    (hd : ∀ d ∈ ds, 0 ≤ d) (h : run nan c (init cap songs) as = some s) (h' : run nan c s as' = some s')
    (hz : Asks size as) (hq : NoRace nan c (init cap songs) (as ++ as'))
    (hT : At (StreamMusic.chunkTime size rate) t0 T ds s) (hs : rest s.pl.pc ≠ none) (ht : 0 < s.pl.tokens)
    (d : Nat × String × Nat → σ) (evs : List (Ev σ)) (now : Int) (outs : List (PlaybackInfo σ)) (o : PlaybackInfo σ) (n : Nat)
    (V : Viewer s' d rate evs now outs o n) (hn : InSong s' n) (hpos : PositionAt (start + delay) size rate now n)
    (hnow : T + delay - (t0 - start) + samplesDuration rate (cap + 1024) + samplesDuration rate 1 + 2 ≤ now) :
    ∃ later, s'.pl.news = s.pl.news ++ later ∧ ∃ e ∈ later, o.song = some (asSong d e) := by
  have h1 := (run_sim as (inv_init nan cap songs) h).1
  obtain ⟨h2, bs, h3, h4⟩ := run_sim as' h1 h'
  have z1 := sized_run as (s := init cap songs) ⟨by simp [init, Fill.init], by simp [init, Fill.init]⟩ hz h
  obtain ⟨_, _, _, b, hbm, b1, b2, e, e1, e2, e3, e4⟩ := shown hbrk (run_app as as' h h') hq V hn
  have g4 := position_after rfl hP hd hT hpos hnow
  have hlead := song_lead h1 hs
  rw [read_begun h1 z1] at hlead
  have hJ : Jumped c.brk (stream s) s.pl.news (whole s) := by
    by_cases hc : ∃ r n ok, s.pl.pc = .chk r n ok
    · obtain ⟨r, n, ok, hc⟩ := hc
      exact .inr (.inl ⟨r, n, ok, hc, ht, rfl, [], by simp, by simp [whole]⟩)
    · exact .inl ⟨hs, fun r n ok hx => hc ⟨r, n, ok, hx⟩, ht, rfl, rfl⟩
  obtain ⟨i1, i2, i3⟩ := increasing hbrk h
  obtain ⟨j1, j2, j3⟩ := increasing hbrk (run_app as as' h h')
  have hB0 : EndToEnd.BlockInv (whole s) := by
    obtain ⟨_, bs0, k1, _⟩ := run_sim as (inv_init nan cap songs) h
    have hw0 : whole (init cap songs : St β) = StreamLoop.init songs := by simp [whole, stream, init, StreamLoop.init]
    rw [hw0] at k1
    exact EndToEnd.blockInv_run songs bs0 _ k1
  have hL0 : Left (stream s).length s.pl.news (whole s) := by
    refine ⟨[], by simp [whole], fun b hb => .inl ?_⟩
    have := i3 b hb
    omega
  have hfin : EndToEnd.BlockInv (whole s') ∧ Jumped c.brk (stream s) s.pl.news (whole s') ∧ Left (stream s).length s.pl.news (whole s') :=
    StreamLoop.run_induct (P := fun x => EndToEnd.BlockInv x ∧ Jumped c.brk (stream s) s.pl.news x ∧ Left (stream s).length s.pl.news x)
      (ok := fun _ => True) (fun x y a _ hi hst => ⟨blockInv_step hi.1 hst, jumped_step hi.2.1 hst, left_step hi.2.1 hi.1.2.1 hi.2.2 hst⟩)
      (by simp) ⟨hB0, hJ, hL0⟩ h3
  obtain ⟨_, _, later, l1, l2⟩ := hfin
  refine ⟨later, l1, e, ?_, e4⟩
  rcases l2 b hbm with hx | ⟨f, f1, f2⟩
  · omega
  · have hfm : f ∈ s'.pl.news := by rw [show s'.pl.news = s.pl.news ++ later from l1]; simp [f1]
    have hfe : f.1 ≤ e.1 := by
      rcases e3 f hfm with hx | hx
      · exact hx
      · omega
    rw [show s'.pl.news = s.pl.news ++ later from l1] at e1 j1
    rcases List.mem_append.mp e1 with hx | hx
    · have := (List.pairwise_append.mp j1).2.2 e hx f f1
      omega
    · exact hx

/-! ## Resuming and queueing -/

/-- A song goes on, and what is announced meanwhile comes behind it. -/
def GoesNews (rem0 : List (β × β)) (out0 : List (Option (β × β))) (news0 : List (Nat × String × Nat)) (s : StreamLoop.St (β × β)) : Prop :=
  Goes rem0 out0 s ∧ ∃ later, s.news = news0 ++ later ∧ ∀ e ∈ later, out0.length + rem0.length ≤ e.1

theorem goesNews_step {c : Cfg (β × β)} {rem0 : List (β × β)} {out0 : List (Option (β × β))} {news0 : List (Nat × String × Nat)}
    {s s' : StreamLoop.St (β × β)} {a : StreamLoop.Act} (hg : GoesNews rem0 out0 news0 s) (ha : a ≠ .setPlaying false ∧ a ≠ .jumpToken)
    (e : StreamLoop.step c s a = some s') : GoesNews rem0 out0 news0 s' := by
  obtain ⟨g, later, l1, l2⟩ := hg
  refine ⟨goes_step g ha e, ?_⟩
  rcases news_step e with hn | ⟨hr, nm, ln, hn⟩
  · exact ⟨later, hn.trans l1, l2⟩
  · refine ⟨later ++ [(s.out.length, nm, ln)], by rw [hn, l1]; simp, ?_⟩
    intro x hx
    rcases List.mem_append.mp hx with hx | hx
    · exact l2 x hx
    · simp only [List.mem_singleton] at hx
      subst hx
      rcases g.2.2 with ⟨_, rem, h1, _⟩ | h1
      · rw [hr] at h1; cases h1
      · simpa using h1.length_le

/-- The song shown at a position between the announcement of a song and all later ones is that song. -/
theorem unique_song {nan : β} {c : Cfg (β × β)} {cap : Nat} {songs : List String} {as : List Act} {s : St β} (hb : 0 < c.brk)
    (h : run nan c (init cap songs) as = some s) {pre later : List (Nat × String × Nat)} {x : Nat × String × Nat}
    (hn : s.pl.news = pre ++ x :: later) {n : Nat} (hx : x.1 < n) (hl : ∀ e ∈ later, n ≤ e.1)
    {b : Nat × Nat} (b1 : b.1 < n) (b2 : n ≤ b.1 + b.2) {e : Nat × String × Nat} (e1 : e ∈ s.pl.news) (e2 : e.1 ≤ b.1)
    (e3 : ∀ e' ∈ s.pl.news, e'.1 ≤ e.1 ∨ b.1 + b.2 ≤ e'.1) : e = x := by
  obtain ⟨j1, _, _⟩ := increasing hb h
  have h1 : x.1 ≤ e.1 := by
    rcases e3 x (by rw [hn]; simp) with h | h <;> omega
  rw [hn] at e1 j1
  rcases List.mem_append.mp e1 with h2 | h2
  · have := (List.pairwise_append.mp j1).2.2 e h2 x (by simp)
    omega
  · rcases List.mem_cons.mp h2 with h2 | h2
    · exact h2
    · have := hl e h2
      omega

/-- C133, resuming: at time `T` the playlist is playing, in a song, no jump being under way, and stays so. There is a sample number `k`,
begun at most the channels' capacity and a block later, such that whoever watches the server is shown, at positions in the rest of the song,
"playing" and this song; and all positions from the stream delay, the time the channels hold, a block and a sample after `T` on are behind `k`. -/
theorem C133_resume_partial {σ : Type} (nan : β) (c : Cfg (β × β)) (cap : Nat) (songs : List String) (as as' : List Act) (s s' : St β)
    (start t0 delay T : Int) (size rate : Nat) (ds : List Int) (hbrk : 0 < c.brk) (hP : 0 < StreamMusic.chunkTime size rate)
    (hd : ∀ d ∈ ds, 0 ≤ d) (h : run nan c (init cap songs) as = some s) (h' : run nan c s as' = some s')
    (hz : Asks size as) (hq : NoRace nan c (init cap songs) (as ++ as'))
    (hT : At (StreamMusic.chunkTime size rate) t0 T ds s) (hs : rest s.pl.pc ≠ none) (hp : s.pl.playing = true) (ht : s.pl.tokens = 0)
    (hr : .setPlaying false ∉ as') (hj : .jumpToken ∉ as') :
    ∃ k a name l m, s.pl.news.getLast? = some (a, name, l.length) ∧ c.dec name = some l ∧
      m = (Spec.audio ((stream s).drop a)).length ∧
      (∀ now n, PositionAt (start + delay) size rate now n →
        T + delay - (t0 - start) + samplesDuration rate (cap + 512) + samplesDuration rate 1 + 2 ≤ now → k < n) ∧
      ∀ (d : Nat × String × Nat → σ) (evs : List (Ev σ)) (now : Int) (outs : List (PlaybackInfo σ)) (o : PlaybackInfo σ) (n : Nat),
        Viewer s' d rate evs now outs o n → InSong s' n → k < n → n ≤ k + (l.length - m) →
        o.playing = true ∧ o.song = some (asSong d (a, name, l.length)) := by
  have h1 := (run_sim as (inv_init nan cap songs) h).1
  obtain ⟨h2, bs, h3, h4⟩ := run_sim as' h1 h'
  have z1 := sized_run as (s := init cap songs) ⟨by simp [init, Fill.init], by simp [init, Fill.init]⟩ hz h
  have hlead := song_lead h1 hs
  rw [read_begun h1 z1] at hlead
  cases hrm : rest s.pl.pc with
  | none => exact absurd hrm hs
  | some rem =>
    obtain ⟨⟨a, name, len, l, c1, c2, c3⟩, hck⟩ := current_rest h hrm
    obtain ⟨i1, i2, i3⟩ := increasing hbrk h
    have hlast := c1
    obtain ⟨pre, hpre⟩ := List.getLast?_eq_some_iff.mp c1
    have hlen : len = l.length := by
      obtain ⟨_, bs0, k1, _⟩ := run_sim as (inv_init nan cap songs) h
      have hw0 : whole (init cap songs : St β) = StreamLoop.init songs := by simp [whole, stream, init, StreamLoop.init]
      rw [hw0] at k1
      obtain ⟨l', m1, m2, _⟩ := StreamLoop.C08_each_song_complete c songs bs0 _ k1 pre.length a name len (by
        rw [show (whole s).news = s.pl.news from rfl, hpre]; simp)
      rw [c2] at m1; cases m1; exact m2
    subst hlen
    refine ⟨(stream s).length, a, name, l, _, c1, c2, rfl, ?_, ?_⟩
    · intro now n hpos hnow
      have := position_after rfl hP hd hT hpos hnow
      omega
    · intro d evs now outs o n V hn k1 k2
      obtain ⟨g1, g2, g3, b, hbm, b1, b2, e, e1, e2, e3, e4⟩ := shown hbrk (run_app as as' h h') hq V hn
      have hg : GoesNews rem (stream s) s.pl.news (whole s) :=
        ⟨⟨hp, ht, .inl ⟨[], rem, hrm, rfl, by simp [whole], hck⟩⟩, [], by simp [whole], by simp⟩
      have hg' : GoesNews rem (stream s) s.pl.news (whole s') :=
        StreamLoop.run_induct (ok := fun a => a ∈ bs) (fun s1 s2 a ho hi hst => goesNews_step hi
          ⟨fun hx => noResume h4 hr (hx ▸ ho), fun hx => noToken h4 hj (hx ▸ ho)⟩ hst) (fun _ h => h) hg h3
      obtain ⟨_, later, l1, l2⟩ := hg'
      have hrl : l.length - (Spec.audio ((stream s).drop a)).length = rem.length := by rw [← c3]; simp
      rw [hrl] at k2
      constructor
      · obtain ⟨a', nm', ln', l', c1', c2', _, _, c5⟩ := C126_resume nan c cap songs as as' s s' h hs hp ht h' hr hj
        rw [c1] at c1'
        cases c1'
        rw [c2] at c2'
        cases c2'
        have hi : (Spec.audio ((stream s).drop a)).length + (n - 1 - (stream s).length) < l.length := by omega
        have := c5 (n - 1 - (stream s).length) _ (List.getElem?_eq_getElem hi) (by omega)
        rw [show (stream s).length + (n - 1 - (stream s).length) = n - 1 by omega] at this
        exact g1.mpr ⟨_, this⟩
      · have hal := i2 (a, name, l.length) (by rw [hpre]; simp)
        have hn' : s'.pl.news = pre ++ (a, name, l.length) :: later := by
          rw [show s'.pl.news = s.pl.news ++ later from l1, hpre]; simp
        have := unique_song hbrk (run_app as as' h h') hn' (n := n) (by simp only at hal ⊢; omega)
          (fun e he => by have := l2 e he; omega) b1 b2 e1 e2 e3
        rw [e4, this]

/-- C133, queueing: at time `T` no song is being streamed, the playlist has songs and is playing, no jump is under way; it is not paused,
jumped in or emptied afterwards. There is a sample number `k`, behind which all positions are from the stream delay, the time the channels
hold, 32768 samples (or a break) and a sample after `T` on; and if a watcher is shown a position behind `k`, a song of the playlist has
been announced for `k`, and to its end "playing" and this song are shown. -/
theorem C133_queue_partial {σ : Type} (nan : β) (c : Cfg (β × β)) (cap : Nat) (songs : List String) (as as' : List Act) (s s' : St β)
    (start t0 delay T : Int) (size rate : Nat) (ds : List Int) (hbrk : 0 < c.brk) (hP : 0 < StreamMusic.chunkTime size rate)
    (hd : ∀ d ∈ ds, 0 ≤ d) (h : run nan c (init cap songs) as = some s) (h' : run nan c s as' = some s')
    (hz : Asks size as) (hq : NoRace nan c (init cap songs) (as ++ as'))
    (hT : At (StreamMusic.chunkTime size rate) t0 T ds s) (hs : Between s) (hp : s.pl.playing = true) (ht : s.pl.tokens = 0)
    (hpl : Playable c s.pl.songs) (hr : .setPlaying false ∉ as') (hj : .jumpToken ∉ as') (he : ∀ l, .edit l ∈ as' → Playable c l) :
    ∃ k, (∀ now n, PositionAt (start + delay) size rate now n →
        T + delay - (t0 - start) + samplesDuration rate (cap + max 32768 c.brk) + samplesDuration rate 1 + 2 ≤ now → k < n) ∧
      (k < (stream s').length → ∃ name l, (name ∈ s.pl.songs ∨ ∃ ns, .edit ns ∈ as' ∧ name ∈ ns) ∧ c.dec name = some l ∧
        ∀ (d : Nat × String × Nat → σ) (evs : List (Ev σ)) (now : Int) (outs : List (PlaybackInfo σ)) (o : PlaybackInfo σ) (n : Nat),
          Viewer s' d rate evs now outs o n → InSong s' n → k < n → n ≤ k + l.length →
          o.playing = true ∧ o.song = some (asSong d (k, name, l.length))) := by
  have h1 := (run_sim as (inv_init nan cap songs) h).1
  have z1 := sized_run as (s := init cap songs) ⟨by simp [init, Fill.init], by simp [init, Fill.init]⟩ hz h
  obtain ⟨k, k1, k2, k3, k4⟩ := C132_stream nan c cap songs as as' s s' h hs hp ht hpl h' hr hj he
  rw [read_begun h1 z1] at k2
  refine ⟨k, ?_, ?_⟩
  · intro now n hpos hnow
    have := position_after rfl hP hd hT hpos hnow
    omega
  · intro hk
    rcases k4 with k4 | ⟨name, l, n1, n2, ⟨later, n3, n4⟩, n5⟩
    · omega
    · refine ⟨name, l, n1, n2, ?_⟩
      intro d evs now outs o n V hn m1 m2
      obtain ⟨g1, g2, g3, b, hbm, b1, b2, e, e1, e2, e3, e4⟩ := shown hbrk (run_app as as' h h') hq V hn
      constructor
      · have := n5 (n - 1 - k) _ (List.getElem?_eq_getElem (by omega)) (by omega)
        rw [show k + (n - 1 - k) = n - 1 by omega] at this
        exact g1.mpr ⟨_, this⟩
      · have := unique_song hbrk (run_app as as' h h') n3 (n := n) (by simpa using m1)
          (fun e he => by have := n4 e he; omega) b1 b2 e1 e2 e3
        rw [e4, this]

/-! The hypotheses can be met. -/

/-- `NoRace`, computed. -/
def noRace (nan : Nat) (c : Cfg (Nat × Nat)) : St Nat → List Act → Bool
  | _, [] => true
  | s, a :: as =>
    (match a, s.pl.pc with
      | .setPlaying _, .h2 _ => false
      | .setPlaying _, .h3 _ => false
      | .setPlaying _, .body _ => false
      | _, _ => true) &&
    match step nan c s a with
    | none => true
    | some t => noRace nan c t as

theorem noRace_spec (nan : Nat) (c : Cfg (Nat × Nat)) (as : List Act) (s : St Nat) (h : noRace nan c s as = true) : NoRace nan c s as := by
  induction as generalizing s with
  | nil => trivial
  | cons a as ih =>
    simp only [noRace, Bool.and_eq_true] at h
    refine ⟨?_, ?_⟩
    · intro b hb r
      subst hb
      have := h.1
      refine ⟨fun hx => ?_, fun hx => ?_, fun hx => ?_⟩ <;> rw [hx] at this <;> cases this
    · intro t ht
      rw [ht] at h
      exact ih t h.2

def exBefore : List Act := [.setPlaying true, .loop, .loop, .loop, .loop, .loop, .loop, .loop, .setPlaying false]

/-- What the infoer gets: the announcements in the wrong order, the pause, the chunk. -/
def exEvs : List (Ev String) := [.song ⟨"a", 5, 3⟩, .pause ⟨false, 5⟩, .song ⟨"a", 0, 3⟩, .chunk ⟨0, 0, 600⟩]

def exShown : PlaybackInfo String := (Infoer.info 2 300000000000 ⟨[⟨"a", 0, 3⟩, ⟨"a", 5, 3⟩], [⟨0, 0, 600⟩], [⟨false, 5⟩]⟩).1

theorem ex_infoer : ∃ st, Infoer.Run 2 ⟨[], [], []⟩ (exEvs ++ [.query 300000000000]) ([] ++ [exShown]) st :=
  ⟨_, .song (s1 := ⟨[⟨"a", 5, 3⟩], [], []⟩) ⟨⟨.refl _, by simp⟩, rfl, rfl⟩ <|
    .pause (s1 := ⟨[⟨"a", 5, 3⟩], [], [⟨false, 5⟩]⟩) ⟨⟨.refl _, by simp⟩, rfl, rfl⟩ <|
    .song (s1 := ⟨[⟨"a", 0, 3⟩, ⟨"a", 5, 3⟩], [], [⟨false, 5⟩]⟩) ⟨⟨List.Perm.swap _ _ _, by simp⟩, rfl, rfl⟩ <|
    .chunk (s1 := ⟨[⟨"a", 0, 3⟩, ⟨"a", 5, 3⟩], [⟨0, 0, 600⟩], [⟨false, 5⟩]⟩) ⟨⟨.refl _, by simp⟩, rfl, rfl⟩ <|
    .query <| .nil _⟩

def exFacts (s : St Nat) : Bool :=
  !s.pl.playing && begun s == 0 && noRace 0 exCfg (init 2 ["a"]) (exBefore ++ exAfter s) &&
    (exAfter s).all (fun a => match a with | .setPlaying true => false | _ => true)

set_option synthInstance.maxSize 1000 in
set_option synthInstance.maxHeartbeats 200000 in
theorem ex_run : ((run 0 exCfg (init 2 ["a"]) exBefore).bind fun s => (run 0 exCfg s (exAfter s)).map fun t =>
      (t.pl.news, t.pl.pauses, t.pl.blocks, exFacts s)) =
    some ([(0, "a", 3), (5, "a", 3)], [(false, 5)], [(0, 3), (5, 512), (517, 512)], true) := by
  decide +kernel

/-- All hypotheses of `C133_pause_partial` (and the watcher of the other three) for the paused song of `Verif.Props.PauseHeard`, 300 seconds
later, at position 600 inside the third block. -/
theorem ex_viewer : ∃ s s', run 0 exCfg (init 2 ["a"]) exBefore = some s ∧ run 0 exCfg s (exAfter s) = some s' ∧
    Asks 600 exBefore ∧ NoRace 0 exCfg (init 2 ["a"]) (exBefore ++ exAfter s) ∧ At (StreamMusic.chunkTime 600 2) 0 0 [] s ∧
    s.pl.playing = false ∧ .setPlaying true ∉ exAfter s ∧
    Viewer s' (fun e => e.2.1) 2 exEvs 300000000000 [] exShown 600 ∧ InSong s' 600 ∧ PositionAt (0 + 0) 600 2 300000000000 600 ∧
    (0 : Int) + 0 - (0 - 0) + samplesDuration 2 (2 + 512) + samplesDuration 2 1 + 2 ≤ 300000000000 ∧
    0 < exCfg.brk ∧ 0 < StreamMusic.chunkTime 600 2 ∧ exShown.playing = false ∧ exShown.song = some ⟨"a", 5, 3⟩ := by
  have h := ex_run
  cases h1 : run 0 exCfg (init 2 ["a"]) exBefore with
  | none => rw [h1] at h; cases h
  | some s =>
    rw [h1] at h
    simp only [Option.bind_some, Option.map_eq_some_iff, Prod.mk.injEq] at h
    obtain ⟨s', h2, n1, n2, n3, n⟩ := h
    simp only [exFacts, Bool.and_eq_true, Bool.not_eq_true', beq_iff_eq] at n
    obtain ⟨⟨⟨n4, n5⟩, n6⟩, n7⟩ := n
    have hsmp : exShown.sample = 600 ∧ exShown.playing = false ∧ exShown.song = some ⟨"a", 5, 3⟩ := by decide +kernel
    refine ⟨s, s', rfl, h2, by simp [Asks, exBefore], noRace_spec _ _ _ _ n6, ⟨by omega, .inl n5⟩, n4, ?_, ?_, ?_, ?_, ?_, by decide,
      by decide, hsmp.2.1, hsmp.2.2⟩
    · intro hm
      have := List.all_eq_true.mp n7 _ hm
      cases this
    · refine ⟨ex_infoer, ?_, by simp [exEvs, Infoer.songsOf], ?_, by simp [exEvs, Infoer.pausesOf], by simp [exEvs, Infoer.chunksOf], by simp [exEvs, Infoer.queriesOf], ?_, ?_, ?_, ?_, ?_⟩
      · rw [n1]; simp [exEvs, Infoer.songsOf, asSong]
      · rw [n2]; simp [exEvs, Infoer.pausesOf, asToggle]
      · simp [hsmp.1]
      · simp [List.filter, hsmp.1]
      · exact hsmp.1
      · rw [n1]; simp [exEvs, Infoer.songsOf, asSong]
      · rw [n2]; simp [exEvs, Infoer.pausesOf, asToggle]
    · exact ⟨(517, 512), by rw [n3]; simp, by omega, by omega⟩
    · exact ⟨0, by decide⟩
    · decide

end MS.ShownInTime
