import Verif.Model.Machine
import Verif.Props.Commands
import Verif.Props.Infoer
import Verif.Lemmas.Streamer
/-!
# Property C96: the times announced, played and shown stay right however long everything runs

The 64 bit arithmetic of the code agrees with exact arithmetic within stated bounds.
-/
set_option linter.unusedSimpArgs false
namespace MS.Machine
open MS.Streamer (TS skipNaN dropLate streamDirect)
open MS.Infoer (Chunk Song Toggle State PlaybackInfo Picss u64 songStart songLen removeOldPauses)
open MS.Commands (wrap64_id)

variable {α : Type}

theorem wrap_add_wrap (a b : Int) : wrap64 (wrap64 a + wrap64 b) = wrap64 (a + b) := by
  unfold wrap64; simp

theorem wrap_sub_wrap (a b : Int) : wrap64 (wrap64 a - wrap64 b) = wrap64 (a - b) := by
  unfold wrap64; simp

/-- Truncated division does not enlarge. -/
theorem tdiv_le (a : Int) (b : Nat) (h : 0 ≤ a) : 0 ≤ a.tdiv b ∧ a.tdiv b ≤ a := by
  rw [Int.tdiv_eq_ediv_of_nonneg h]
  exact ⟨Int.ediv_nonneg h (Int.natCast_nonneg b), Int.ediv_le_self _ h⟩

theorem tdiv_two (a : Int) : -(2 ^ 62) ≤ a → a ≤ 2 ^ 62 → -(2 ^ 61) ≤ a.tdiv 2 ∧ a.tdiv 2 ≤ 2 ^ 61 := by
  intro h1 h2
  rcases Int.le_total 0 a with h | h
  · rw [Int.tdiv_eq_ediv_of_nonneg h]; omega
  · have : a.tdiv 2 = -((-a).tdiv 2) := by rw [Int.neg_tdiv, Int.neg_neg]
    rw [this, Int.tdiv_eq_ediv_of_nonneg (by omega)]
    omega

/-! ## The server -/

theorem chunkTime_exact (size rate : Nat) (hs : size ≤ 2 ^ 33) :
    chunkTime size rate = StreamMusic.chunkTime size rate ∧ 0 ≤ StreamMusic.chunkTime size rate ∧
      StreamMusic.chunkTime size rate < 2 ^ 63 := by
  have h0 : (0 : Int) ≤ (size : Int) * 1000000000 := by omega
  have := tdiv_le _ rate h0
  unfold chunkTime div mul StreamMusic.chunkTime
  rw [wrap64_id (x := (size : Int) * 1000000000) (by omega) (by omega), wrap64_id (by omega) (by omega)]
  exact ⟨rfl, by omega, by omega⟩

theorem messagesFrom_exact (start time : Int) (size : Nat) (ht : 0 ≤ time) (hst : -(2 ^ 62) ≤ start) (hst2 : start ≤ 2 ^ 62) :
    ∀ (fills : List (Nat × List α × List α)) (index : Nat), ((index + fills.length : Nat) : Int) * time < 2 ^ 62 →
      index + fills.length < 2 ^ 62 →
      messagesFrom start time size index fills = StreamMusic.messagesFrom start time size index fills := by
  intro fills
  induction fills with
  | nil => intro index _ _; rfl
  | cons x fills ih =>
    intro index h1 h2
    obtain ⟨first, low, high⟩ := x
    simp only [List.length_cons] at h1 h2
    have hle : ((index : Nat) : Int) * time ≤ ((index + (fills.length + 1) : Nat) : Int) * time :=
      Int.mul_le_mul_of_nonneg_right (by omega) ht
    have hge : (0 : Int) ≤ (index : Int) * time := Int.mul_nonneg (by omega) ht
    have e1 : mul index time = index * time := wrap64_id (by omega) (by omega)
    have e2 : add start (index * time) = start + index * time := wrap64_id (by omega) (by omega)
    have e3 : add (index : Int) 1 = ((index + 1 : Nat) : Int) := by
      unfold add; rw [wrap64_id (by omega) (by omega)]; omega
    simp only [messagesFrom, StreamMusic.messagesFrom, e1, e2, e3]
    rw [ih (index + 1) (by rw [show index + 1 + fills.length = index + (fills.length + 1) by omega]; exact h1) (by omega)]
    simp

/-- C96, server: the announced schedule is the exact one, if the server's clock shows at most 2^61 ns (73 years), its
stream delay is at most that, chunks have at most 2^33 samples and the stream is at most 2^62 ns (146 years) long. -/
theorem C96_server (now delay : Int) (size rate : Nat) (fills : List (Nat × List α × List α))
    (hn : 0 ≤ now ∧ now ≤ 2 ^ 61) (hd : 0 ≤ delay ∧ delay ≤ 2 ^ 61) (hs : size ≤ 2 ^ 33)
    (hlen : (fills.length : Int) * StreamMusic.chunkTime size rate < 2 ^ 62) (hl : fills.length < 2 ^ 62) :
    messages now delay size rate fills = StreamMusic.messages now delay size rate fills := by
  obtain ⟨h1, h2, _⟩ := chunkTime_exact size rate hs
  unfold messages StreamMusic.messages
  have e : add now delay = now + delay := wrap64_id (by omega) (by omega)
  rw [e, h1]
  exact messagesFrom_exact (now + delay) _ size h2 (by omega) (by omega) fills 0 (by simpa using hlen) (by omega)

/-! ## Clock synchronisation -/

/-- C96, clock: with clocks of at most 2^61 ns (73 years) the estimate of the offset is the exact one. -/
theorem C96_clock (cs sr ss cr : Int) (h1 : 0 ≤ cs ∧ cs ≤ 2 ^ 61) (h2 : 0 ≤ sr ∧ sr ≤ 2 ^ 61) (h3 : 0 ≤ ss ∧ ss ≤ 2 ^ 61)
    (h4 : 0 ≤ cr ∧ cr ≤ 2 ^ 61) :
    calcOffset cs sr ss cr = Timing.calcOffset cs sr ss cr ∧ -(2 ^ 61) ≤ Timing.calcOffset cs sr ss cr ∧
      Timing.calcOffset cs sr ss cr ≤ 2 ^ 61 := by
  unfold calcOffset Timing.calcOffset add sub div
  rw [wrap64_id (x := sr - cs) (by omega) (by omega), wrap64_id (x := ss - cr) (by omega) (by omega),
    wrap64_id (x := sr - cs + (ss - cr)) (by omega) (by omega)]
  have := tdiv_two (sr - cs + (ss - cr))
  rw [wrap64_id] <;> omega

/-- C96, clock: the synced time is the exact one. -/
theorem C96_synced_time (offset raw : Int) (h1 : -(2 ^ 61) ≤ offset ∧ offset ≤ 2 ^ 61) (h2 : 0 ≤ raw ∧ raw ≤ 2 ^ 61) :
    syncedTime offset raw = raw + offset := wrap64_id (by omega) (by omega)

/-! ## The player -/

theorem samplesDuration_exact (rate n : Nat) (hn : n ≤ 2 ^ 30) :
    samplesDuration rate n = Streamer.samplesDuration rate n ∧ 0 ≤ Streamer.samplesDuration rate n ∧
      Streamer.samplesDuration rate n ≤ 2 ^ 60 := by
  have h0 : (0 : Int) ≤ 1000000000 * (n : Int) := by omega
  have := tdiv_le _ rate h0
  unfold samplesDuration div mul Streamer.samplesDuration
  rw [wrap64_id (x := 1000000000 * (n : Int)) (by omega) (by omega), wrap64_id (by omega) (by omega)]
  exact ⟨rfl, by omega, by omega⟩

/-- C96, player: the time given to a sample of a chunk is the exact one. -/
theorem C96_stamp (rate : Nat) (start : Int) (i : Nat) (h1 : -(2 ^ 62) ≤ start) (h2 : start ≤ 2 ^ 62) (hi : i ≤ 2 ^ 30) :
    stamp rate start i = start + Streamer.samplesDuration rate i := by
  obtain ⟨e, a, b⟩ := samplesDuration_exact rate i hi
  unfold stamp add
  rw [e, wrap64_id (by omega) (by omega)]

theorem skipNaN_mem : ∀ (q : List (TS α)) (s : TS α) (r : List (TS α)), skipNaN q = some (s, r) → s ∈ q ∧ ∀ x ∈ r, x ∈ q := by
  intro q
  induction q with
  | nil => intro s r h; simp [skipNaN] at h
  | cons x q ih =>
    intro s r h
    simp only [skipNaN] at h
    split at h
    · obtain ⟨a, b⟩ := ih _ _ h
      exact ⟨List.mem_cons_of_mem _ a, fun y hy => List.mem_cons_of_mem _ (b y hy)⟩
    · simp at h
      obtain ⟨rfl, rfl⟩ := h
      exact ⟨by simp, fun y hy => List.mem_cons_of_mem _ hy⟩

theorem dropLate_mem (now : Int) : ∀ (q r : List (TS α)), dropLate now q = some r → ∀ x ∈ r, x ∈ q := by
  intro q
  induction q with
  | nil => intro r h; simp [dropLate] at h
  | cons x q ih =>
    intro r h
    simp only [dropLate] at h
    split at h
    · exact fun y hy => List.mem_cons_of_mem _ (ih _ h y hy)
    · simp at h; subst h; exact fun y hy => hy

theorem streamDirect_mem : ∀ (k : Nat) (q : List (TS α)) (vs : List α) (d : Bool) (r : List (TS α)),
    streamDirect k q = some (vs, d, r) → vs.length ≤ k ∧ ∀ x ∈ r, x ∈ q := by
  intro k
  induction k with
  | zero => intro q vs d r h; simp [streamDirect] at h; obtain ⟨rfl, rfl, rfl⟩ := h; exact ⟨by simp, fun x hx => hx⟩
  | succ k ih =>
    intro q vs d r h
    cases q with
    | nil => simp [streamDirect] at h
    | cons s q =>
      simp only [streamDirect] at h
      split at h
      · simp at h; obtain ⟨rfl, rfl, rfl⟩ := h; exact ⟨by simp, fun x hx => List.mem_cons_of_mem _ hx⟩
      · split at h
        · rename_i o d' r' h'
          obtain ⟨a, b⟩ := ih q _ _ _ h'
          simp at h
          obtain ⟨rfl, rfl, rfl⟩ := h
          exact ⟨by simp; omega, fun x hx => List.mem_cons_of_mem _ (b x hx)⟩
        · simp at h

/-- The times in a buffer are within 2^61 ns (73 years). -/
def TimesOk (q : List (TS α)) : Prop := ∀ s ∈ q, -(2 ^ 61) ≤ s.time ∧ s.time ≤ 2 ^ 61

theorem streamSync_exact (rate len : Nat) (now : Int) (q : List (TS α)) (hq : TimesOk q) (hl : len ≤ 2 ^ 30) :
    streamSync rate len now q = Streamer.streamSync rate len now q ∧
      ∀ n d r, Streamer.streamSync rate len now q = some (n, d, r) → n ≤ len ∧ TimesOk r := by
  obtain ⟨e, d0, d1⟩ := samplesDuration_exact rate len hl
  unfold streamSync Streamer.streamSync
  cases hs : skipNaN q with
  | none => exact ⟨rfl, by simp⟩
  | some x =>
    obtain ⟨s, q'⟩ := x
    obtain ⟨m1, m2⟩ := skipNaN_mem q s q' hs
    have ht := hq s m1
    have hok : TimesOk (s :: q') := by
      intro x hx
      rcases List.mem_cons.1 hx with rfl | hx
      · exact ht
      · exact hq x (m2 x hx)
    have e2 : add s.time (Streamer.samplesDuration rate len) = s.time + Streamer.samplesDuration rate len :=
      wrap64_id (by omega) (by omega)
    simp only [e, e2]
    by_cases h1 : now < s.time + Streamer.samplesDuration rate len
    · simp only [if_pos h1]
      refine ⟨trivial, ?_⟩
      intro n d r h
      simp only [Option.some.injEq, Prod.mk.injEq] at h
      obtain ⟨rfl, rfl, rfl⟩ := h
      exact ⟨Nat.le_refl _, hok⟩
    · simp only [if_neg h1, if_neg (show ¬now < s.time by omega)]
      refine ⟨rfl, ?_⟩
      intro n d r h
      split at h
      · rename_i r' hr
        simp only [Option.some.injEq, Prod.mk.injEq] at h
        obtain ⟨rfl, rfl, rfl⟩ := h
        exact ⟨Nat.zero_le _, fun x hx => hok x (dropLate_mem now _ _ hr x hx)⟩
      · simp at h

theorem stream_sync (rate len : Nat) (now : Int) (q : List (TS α)) (h0 : len ≠ 0) :
    Streamer.stream rate len now true q =
      match Streamer.streamSync rate len now q with
      | none => none
      | some (n, drained, r) =>
        if drained then
          if r = [] then none
          else
            match Streamer.stream rate (len - n) (now + Streamer.samplesDuration rate n) false r with
            | none => none
            | some (out, sy, q') => some (List.replicate n none ++ out, sy, q')
        else some (List.replicate n none, true, r) := by
  conv => lhs; rw [Streamer.stream]
  simp only [h0, if_false, dite_true]
  split <;> simp_all <;> rfl

theorem stream_direct (rate len : Nat) (now : Int) (q : List (TS α)) (h0 : len ≠ 0) :
    Streamer.stream rate len now false q =
      match streamDirect len q with
      | none => none
      | some (vs, drained, r) =>
        if drained then
          if r = [] then none
          else
            match Streamer.stream rate (len - vs.length) (now + Streamer.samplesDuration rate vs.length) true r with
            | none => none
            | some (out, sy, q') => some (vs.map some ++ out, sy, q')
        else some (vs.map some, false, r) := by
  conv => lhs; rw [Streamer.stream]
  simp only [h0, if_false, Bool.false_eq_true, dite_false]
  split <;> simp_all <;> rfl

theorem streamN_exact (rate : Nat) : ∀ (fuel len : Nat) (now : Int) (sy : Bool) (q : List (TS α)),
    TimesOk q → len ≤ 2 ^ 30 → -(2 ^ 62) ≤ now → now + 1000000000 * len ≤ 2 ^ 62 →
    2 * q.length + (if sy then 1 else 0) < fuel →
    streamN rate fuel len now sy q = Streamer.stream rate len now sy q := by
  intro fuel
  induction fuel with
  | zero => intro len now sy q _ _ _ _ h; omega
  | succ fuel ih =>
    intro len now sy q hq hl hn1 hn2 hf
    rw [streamN]
    by_cases hl0 : len = 0
    · subst hl0; rw [Streamer.stream]; simp
    rw [if_neg hl0]
    have hdur : ∀ n, n ≤ len → add now (samplesDuration rate n) = now + Streamer.samplesDuration rate n ∧
        0 ≤ Streamer.samplesDuration rate n ∧ Streamer.samplesDuration rate n ≤ 1000000000 * n := by
      intro n hn
      obtain ⟨e, a, b⟩ := samplesDuration_exact rate n (by omega)
      have c : Streamer.samplesDuration rate n ≤ 1000000000 * n := (tdiv_le _ rate (by omega)).2
      refine ⟨?_, a, c⟩
      rw [e]; exact wrap64_id (by omega) (by omega)
    cases sy with
    | true =>
      obtain ⟨e, hr⟩ := streamSync_exact rate len now q hq hl
      rw [stream_sync _ _ _ _ hl0, if_pos rfl, e]
      cases h : Streamer.streamSync rate len now q with
      | none => rfl
      | some x =>
        obtain ⟨n, d, r⟩ := x
        have hlen := Streamer.streamSync_len rate len now q n d r h
        obtain ⟨a, b⟩ := hr n d r h
        obtain ⟨c1, c2, c3⟩ := hdur n a
        simp only [c1]
        rw [ih (len - n) _ false r b (by omega) (by omega) (by omega) (by simp at hf ⊢; omega)]
        rfl
    | false =>
      rw [stream_direct _ _ _ _ hl0, if_neg (by simp)]
      cases h : streamDirect len q with
      | none => rfl
      | some x =>
        obtain ⟨vs, d, r⟩ := x
        obtain ⟨a, b⟩ := streamDirect_mem len q vs d r h
        obtain ⟨g1, g2⟩ := Streamer.streamDirect_len len q vs d r h
        obtain ⟨c1, c2, c3⟩ := hdur vs.length a
        simp only [c1]
        cases d with
        | false => rfl
        | true =>
          have := g1 rfl
          rw [ih (len - vs.length) _ true r (fun x hx => hq x (b x hx)) (by omega) (by omega) (by omega)
            (by simp at hf ⊢; omega)]
          rfl

/-- C96, player: what the player plays is what exact arithmetic gives, if its synced clock and the times of the buffered
samples are within 2^61 ns (73 years) and the slices have at most 2^30 samples. -/
theorem C96_player (rate len : Nat) (now : Int) (sy : Bool) (q : List (TS α)) (hq : TimesOk q) (hl : len ≤ 2 ^ 30)
    (h1 : -(2 ^ 61) ≤ now) (h2 : now ≤ 2 ^ 61) :
    stream rate len now sy q = Streamer.stream rate len now sy q := by
  refine streamN_exact rate _ len now sy q hq hl (by omega) (by omega) ?_
  cases sy <;> simp

theorem run_mem {rate len : Nat} {now : Int} {sy : Bool} {q : List (TS α)} {out sy' r}
    (h : Streamer.Run rate len now sy q out sy' r) : ∀ x ∈ r, x ∈ q := by
  induction h with
  | done => exact fun x hx => hx
  | wait _ h1 => subst h1; simp_all
  | start _ h1 _ _ _ _ _ _ _ ih =>
    subst h1
    intro x hx
    have := ih x hx
    simp only [List.mem_append]
    exact Or.inr (Or.inr this)
  | play _ h1 => subst h1; simp_all
  | stop _ h1 _ _ _ _ ih =>
    subst h1
    intro x hx
    have := ih x hx
    simp [this]

/-- C96, player: the whole output, whatever the clock shows at each call, is that of exact arithmetic. -/
theorem C96_player_output (rate len : Nat) (hl : len ≤ 2 ^ 30) : ∀ (nows : List Int) (sy : Bool) (q : List (TS α)),
    TimesOk q → (∀ now ∈ nows, -(2 ^ 61) ≤ now ∧ now ≤ 2 ^ 61) →
    playLoop rate len nows sy q = Streamer.playLoop rate len nows sy q := by
  intro nows
  induction nows with
  | nil => intro sy q _ _; rfl
  | cons now nows ih =>
    intro sy q hq hn
    obtain ⟨h1, h2⟩ := hn now (by simp)
    simp only [playLoop, Streamer.playLoop, C96_player rate len now sy q hq hl h1 h2]
    cases h : Streamer.stream rate len now sy q with
    | none => rfl
    | some x =>
      obtain ⟨out, sy', q'⟩ := x
      simp only
      rw [ih sy' q' (fun x hx => hq x (run_mem (Streamer.stream_run h) x hx)) (fun y hy => hn y (List.mem_cons_of_mem _ hy))]
      rfl

/-! ## The infoer -/

/-- Bounds on what an infoer has been told: chunk times within 2^61 ns (73 years) and chunks of at most 2^30 samples, sample
indices below 2^62 (3 million years at 44100 samples a second), songs of at most 2^33 samples (54 hours). -/
structure Bounded {σ : Type} (s : State σ) : Prop where
  chunkTimes : ∀ c ∈ s.chunks, -(2 ^ 61) ≤ c.startTime ∧ c.startTime ≤ 2 ^ 61
  chunkSizes : ∀ c ∈ s.chunks, c.size ≤ 2 ^ 30 ∧ c.startIndex < 2 ^ 62
  songs : ∀ m ∈ s.songs, m.startIndex < 2 ^ 62 ∧ 0 ≤ m.length ∧ m.length ≤ 2 ^ 33

theorem len_exact (rate : Nat) (c : Chunk) (h : c.size ≤ 2 ^ 30) :
    len rate c = c.len rate ∧ 0 ≤ c.len rate ∧ c.len rate ≤ 2 ^ 60 := by
  have h0 : (0 : Int) ≤ (c.size : Int) * 1000000000 := by omega
  have := tdiv_le _ rate h0
  unfold len div mul Chunk.len Infoer.second
  rw [wrap64_id (x := (c.size : Int)) (by omega) (by omega),
    wrap64_id (x := (c.size : Int) * 1000000000) (by omega) (by omega), wrap64_id (by omega) (by omega)]
  exact ⟨rfl, by omega, by omega⟩

theorem endTime_exact (rate : Nat) (c : Chunk) (h : c.size ≤ 2 ^ 30) (h1 : -(2 ^ 61) ≤ c.startTime) (h2 : c.startTime ≤ 2 ^ 61) :
    endTime rate c = c.endTime rate := by
  obtain ⟨e, a, b⟩ := len_exact rate c h
  unfold endTime add Chunk.endTime
  rw [e, wrap64_id (by omega) (by omega)]

theorem removeOldChunks_exact (rate : Nat) (now : Int) : ∀ (cs : List Chunk),
    (∀ c ∈ cs, c.size ≤ 2 ^ 30 ∧ -(2 ^ 61) ≤ c.startTime ∧ c.startTime ≤ 2 ^ 61) →
    removeOldChunks rate now cs = Infoer.removeOldChunks rate now cs := by
  intro cs
  induction cs with
  | nil => intro _; rfl
  | cons c cs ih =>
    intro h
    have hc := h c (by simp)
    simp only [removeOldChunks, Infoer.removeOldChunks, endTime_exact rate c hc.1 hc.2.1 hc.2.2]
    rw [ih (fun x hx => h x (List.mem_cons_of_mem _ hx))]

theorem removeOldChunks_head (rate : Nat) (now : Int) : ∀ (cs : List Chunk) (c : Chunk) (r : List Chunk),
    Infoer.removeOldChunks rate now cs = c :: r → c ∈ cs ∧ now ≤ c.endTime rate := by
  intro cs
  induction cs with
  | nil => intro c r h; simp [Infoer.removeOldChunks] at h
  | cons x cs ih =>
    intro c r h
    simp only [Infoer.removeOldChunks] at h
    split at h
    · simp at h; obtain ⟨rfl, rfl⟩ := h; exact ⟨by simp, by assumption⟩
    · obtain ⟨a, b⟩ := ih c r h; exact ⟨List.mem_cons_of_mem _ a, b⟩

/-- The toggle fold in machine arithmetic: the same up to wrapping around (the sums are not compared with anything). -/
theorem fold_exact (sample : Int) (start : Nat) : ∀ (ps : List Toggle) (a b : Picss),
    a.playing = b.playing → a.paused = wrap64 b.paused → a.pauseBegin = wrap64 b.pauseBegin →
    (ps.foldl (handlePause sample start) a).playing = (ps.foldl (Infoer.handlePause sample start) b).playing ∧
    (ps.foldl (handlePause sample start) a).paused = wrap64 (ps.foldl (Infoer.handlePause sample start) b).paused ∧
    (ps.foldl (handlePause sample start) a).pauseBegin = wrap64 (ps.foldl (Infoer.handlePause sample start) b).pauseBegin := by
  intro ps
  induction ps with
  | nil => intro a b h1 h2 h3; exact ⟨h1, h2, h3⟩
  | cons p ps ih =>
    intro a b h1 h2 h3
    simp only [List.foldl_cons]
    have w0 : (0 : Int) = wrap64 0 := by decide
    have key : (handlePause sample start a p).playing = (Infoer.handlePause sample start b p).playing ∧
        (handlePause sample start a p).paused = wrap64 (Infoer.handlePause sample start b p).paused ∧
        (handlePause sample start a p).pauseBegin = wrap64 (Infoer.handlePause sample start b p).pauseBegin := by
      unfold handlePause Infoer.handlePause
      rw [h1]
      split
      · exact ⟨h1, h2, h3⟩
      · split <;> split <;>
          simp [h2, h3, add, sub, wrap_sub_wrap, wrap_add_wrap, ← w0]
    exact ih _ _ key.1 key.2.1 key.2.2

theorem pauses_exact (sample : Int) (start : Nat) (ps : List Toggle) (hs : wrap64 sample = sample) :
    pausesInCurrentSong sample start ps =
      (wrap64 (Infoer.pausesInCurrentSong sample start ps).1, (Infoer.pausesInCurrentSong sample start ps).2) := by
  have w0 : (0 : Int) = wrap64 0 := by decide
  obtain ⟨h1, h2, h3⟩ := fold_exact sample start ps ⟨true, 0, 0⟩ ⟨true, 0, 0⟩ rfl w0 w0
  unfold pausesInCurrentSong Infoer.pausesInCurrentSong
  simp only [h1, h2, h3]
  generalize ps.foldl (Infoer.handlePause sample start) ⟨true, 0, 0⟩ = st
  split
  · rfl
  · simp only [add, sub]
    have : wrap64 (sample - wrap64 st.pauseBegin) = wrap64 (sample - st.pauseBegin) := by
      conv => lhs; rw [← hs]
      rw [wrap_sub_wrap]
    rw [this, wrap_add_wrap]

theorem currentSong_exact {σ : Type} (sample : Int) (songs : List (Song σ)) (h : ∀ m ∈ songs, m.startIndex < 2 ^ 62) :
    currentSong sample songs = Infoer.currentSong sample songs := by
  unfold currentSong Infoer.currentSong
  have : ∀ l : List (Song σ), (∀ m ∈ l, m.startIndex < 2 ^ 62) →
      l.find? (fun s => decide (wrap64 s.startIndex < sample)) = l.find? (fun s => decide ((s.startIndex : Int) < sample)) := by
    intro l
    induction l with
    | nil => intro _; simp
    | cons x l ih =>
      intro h
      have hx := h x (by simp)
      rw [List.find?_cons, List.find?_cons, wrap64_id (by omega) (by omega),
        ih (fun m hm => h m (List.mem_cons_of_mem _ hm))]
  exact this _ (fun m hm => h m (by simpa using hm))

/-- C96, infoer: what is shown is what exact arithmetic gives, within the bounds above, if the clock is within 2^61 ns, no
chunk that has not ended begins more than 2^62 / rate ns later (29 hours at 44100) and at most 2^33 samples of the
current song have been played (54 hours). -/
theorem C96_infoer {σ : Type} (rate : Nat) (hr : 0 < rate) (now : Int) (s : State σ) (hb : Bounded s)
    (h1 : -(2 ^ 61) ≤ now) (h2 : now ≤ 2 ^ 61)
    (hahead : ∀ c ∈ s.chunks, now ≤ c.endTime rate → (c.startTime - now) * rate ≤ 2 ^ 62)
    (i : PlaybackInfo σ) (hi : i = (Infoer.info rate now s).1)
    (hplayed : -(2 ^ 33) ≤ i.sample - songStart i.song - i.pausesInSong ∧
      i.sample - songStart i.song - i.pausesInSong ≤ 2 ^ 33)
    (hpaused : -(2 ^ 63) ≤ i.pausesInSong ∧ i.pausesInSong < 2 ^ 63) :
    info rate now s = Infoer.info rate now s := by
  have hch : ∀ c ∈ s.chunks, c.size ≤ 2 ^ 30 ∧ -(2 ^ 61) ≤ c.startTime ∧ c.startTime ≤ 2 ^ 61 :=
    fun c hc => ⟨(hb.chunkSizes c hc).1, hb.chunkTimes c hc⟩
  have e1 := removeOldChunks_exact rate now s.chunks hch
  have e2 : sampleAt rate now (Infoer.removeOldChunks rate now s.chunks) =
      Infoer.sampleAt rate now (Infoer.removeOldChunks rate now s.chunks) ∧
      -(2 ^ 63) ≤ Infoer.sampleAt rate now (Infoer.removeOldChunks rate now s.chunks) ∧
      Infoer.sampleAt rate now (Infoer.removeOldChunks rate now s.chunks) < 2 ^ 63 := by
    cases hx : Infoer.removeOldChunks rate now s.chunks with
    | nil => simp [sampleAt, Infoer.sampleAt]
    | cons c r =>
      obtain ⟨hm, hend⟩ := removeOldChunks_head rate now s.chunks c r hx
      have hc := hch c hm
      have hi := (hb.chunkSizes c hm).2
      have ha := hahead c hm hend
      have hu : (now - c.startTime) * rate ≤ 2 ^ 62 := by
        have : now - c.startTime ≤ c.len rate := by unfold Chunk.endTime at hend; omega
        have h3 : (now - c.startTime) * rate ≤ c.len rate * rate := Int.mul_le_mul_of_nonneg_right this (by omega)
        have h4 : c.len rate * rate ≤ (c.size : Int) * 1000000000 := by
          unfold Chunk.len Infoer.second
          rw [Int.tdiv_eq_ediv_of_nonneg (by omega)]
          exact Int.ediv_mul_le _ (by omega)
        omega
      have hl : -(2 ^ 62) ≤ (now - c.startTime) * rate := by
        have : (now - c.startTime) * rate = -((c.startTime - now) * rate) := by
          rw [← Int.neg_mul]; congr 1; omega
        omega
      generalize hP : (now - c.startTime) * rate = P at *
      have hd : -(2 ^ 62) ≤ P.tdiv 1000000000 ∧ P.tdiv 1000000000 ≤ 2 ^ 62 := by
        rcases Int.le_total 0 P with h | h
        · have := tdiv_le P 1000000000 h
          constructor
          · exact Int.le_trans (by omega) this.1
          · exact Int.le_trans this.2 hu
        · have h5 := tdiv_le (-P) 1000000000 (by omega)
          have h6 : P.tdiv 1000000000 = -((-P).tdiv 1000000000) := by rw [Int.neg_tdiv, Int.neg_neg]
          rw [h6]
          have h7 : ((1000000000 : Nat) : Int) = 1000000000 := rfl
          rw [h7] at h5
          omega
      simp only [sampleAt, Infoer.sampleAt, Infoer.second, add, div, mul, sub]
      rw [wrap64_id (x := now - c.startTime) (by omega) (by omega), hP, wrap64_id (x := P) (by omega) (by omega),
        wrap64_id (x := P.tdiv 1000000000) (by omega) (by omega), wrap64_id (x := (c.startIndex : Int)) (by omega) (by omega),
        wrap64_id (by omega) (by omega)]
      exact ⟨rfl, by omega, by omega⟩
  obtain ⟨e2, b1, b2⟩ := e2
  have e3 := currentSong_exact (Infoer.sampleAt rate now (Infoer.removeOldChunks rate now s.chunks)) s.songs
    (fun m hm => (hb.songs m hm).1)
  simp only [info, e1, e2, e3]
  subst hi
  simp only [Infoer.info] at hplayed hpaused ⊢
  generalize Infoer.sampleAt rate now (Infoer.removeOldChunks rate now s.chunks) = smp at *
  have hst : songStart (Infoer.currentSong smp s.songs) < 2 ^ 62 ∧ 0 ≤ songLen (Infoer.currentSong smp s.songs) ∧
      songLen (Infoer.currentSong smp s.songs) ≤ 2 ^ 33 := by
    cases hx : Infoer.currentSong smp s.songs with
    | none => simp [songStart, songLen]
    | some m =>
      have : m ∈ s.songs := by
        have := List.mem_of_find?_eq_some hx
        simpa using this
      have := hb.songs m this
      exact ⟨this.1, this.2.1, this.2.2⟩
  generalize Infoer.currentSong smp s.songs = song at *
  have hws : wrap64 smp = smp := wrap64_id (by omega) (by omega)
  rw [pauses_exact smp _ _ hws]
  generalize Infoer.pausesInCurrentSong smp (songStart song) (removeOldPauses (songStart song) s.pauses) = pp at *
  obtain ⟨paused, playing⟩ := pp
  simp only at hplayed hpaused ⊢
  have hwst : wrap64 (songStart song : Int) = songStart song := wrap64_id (by omega) (by omega)
  rw [hwst]
  split at hpaused
  · rename_i hc
    rw [if_pos hc] at hplayed ⊢
    simp only at hplayed hpaused
    have hwp : wrap64 paused = paused := wrap64_id (by omega) (by omega)
    have hin : sub (sub smp (songStart song)) (wrap64 paused) = smp - songStart song - paused := by
      unfold sub
      rw [wrap_sub_wrap, wrap64_id (by omega) (by omega)]
    have hdiv : ∀ x : Int, -(2 ^ 33) ≤ x → x ≤ 2 ^ 33 → div (mul x 1000000000) rate = (x * Infoer.second).tdiv rate := by
      intro x hx1 hx2
      unfold div mul Infoer.second
      rw [wrap64_id (x := x * 1000000000) (by omega) (by omega)]
      refine wrap64_id ?_ ?_
      all_goals
        rcases Int.le_total 0 x with h | h
        · have := tdiv_le (x * 1000000000) rate (by omega); omega
        · have h5 := tdiv_le (-(x * 1000000000)) rate (by omega)
          rw [Int.neg_tdiv] at h5
          omega
    rw [hin, hwp, hdiv _ (by omega) (by omega), hdiv _ (by omega) (by omega), if_pos hc]
  · rename_i hc
    rw [if_neg hc] at hplayed ⊢
    simp only at hplayed hpaused
    rw [wrap64_id (x := paused) (by omega) (by omega), if_neg hc]

/-- C96 with C60: inside a song of positive length that does not start at index 0 the time shown, computed with 64 bit
arithmetic, is the playing time of the song so far, as long as it is at most 2^33 samples (54 hours); pauses may be of
any length. -/
theorem C96_time_shown {σ : Type} (rate : Nat) (hr : 0 < rate) (now : Int) (s : State σ) (hb : Bounded s)
    (h1 : -(2 ^ 61) ≤ now) (h2 : now ≤ 2 ^ 61)
    (hahead : ∀ c ∈ s.chunks, now ≤ c.endTime rate → (c.startTime - now) * rate ≤ 2 ^ 62)
    (n : Nat) (hn : n < 2 ^ 62) (hpos : (Infoer.info rate now s).1.sample = n) (hc : Infoer.Chrono s.pauses)
    (song : Song σ) (hsong : (Infoer.info rate now s).1.song = some song) (h0 : song.startIndex ≠ 0) (hl : 0 < song.length)
    (played : Nat)
    (hp : played = (List.range' song.startIndex (n - song.startIndex)).countP (fun k => Infoer.playingAt s.pauses k))
    (hp2 : played ≤ 2 ^ 33) :
    (info rate now s).1.timeInSong = ((played : Int) * 1000000000) / rate ∧
      (info rate now s).1.songLength = (song.length * 1000000000) / rate ∧
      (info rate now s).1.progress = some ((played : Int), song.length) := by
  have h60 := Infoer.C60_time_in_song_partial rate now s n (by omega) hpos hc song hsong h0
  simp only [← hp, if_pos hl] at h60
  obtain ⟨a, b, c⟩ := h60
  have hin : (Infoer.info rate now s).1.sample - songStart (Infoer.info rate now s).1.song -
      (Infoer.info rate now s).1.pausesInSong = played := by
    simp only [Infoer.info] at c ⊢
    split at c
    · rename_i hcond
      rw [if_pos hcond]
      simp only at c ⊢
      split at c
      · simp at c; exact c.1
      · simp at c
    · simp at c
  have hst : songStart (Infoer.info rate now s).1.song = song.startIndex := by rw [hsong]; rfl
  have hm : song ∈ s.songs := by
    have : (Infoer.info rate now s).1.song =
        Infoer.currentSong (Infoer.sampleAt rate now (Infoer.removeOldChunks rate now s.chunks)) s.songs := by
      simp only [Infoer.info]; split <;> rfl
    rw [this] at hsong
    have := List.mem_of_find?_eq_some hsong
    simpa using this
  have hst2 := (hb.songs song hm).1
  have e := C96_infoer rate hr now s hb h1 h2 hahead _ rfl (by omega) (by rw [hst, hpos] at hin; omega)
  rw [e]
  refine ⟨a, ?_, c⟩
  rw [b]
  unfold Infoer.second
  rw [Int.tdiv_eq_ediv_of_nonneg (by omega)]

/-! ## Beyond the bounds -/

/-- C96 fails for very long songs: from 9223372037 samples on (58 hours at 44100 samples a second) the time shown is
negative. -/
theorem C96_long_song (rate : Nat) (hr : 0 < rate) (hr2 : rate ≤ 2 ^ 30) (x : Int) (h1 : 9223372037 ≤ x) (h2 : x ≤ 18446744072) :
    div (mul x 1000000000) rate < 0 := by
  have e : mul x 1000000000 = x * 1000000000 - 2 ^ 64 := by
    unfold mul wrap64
    rw [Int.bmod_def]
    split <;> omega
  have hneg : mul x 1000000000 ≤ -(2 ^ 30) ∧ -(2 ^ 63) ≤ mul x 1000000000 := by rw [e]; omega
  generalize mul x 1000000000 = m at *
  have hq : m.tdiv rate = -((-m) / rate) := by
    rw [← Int.tdiv_eq_ediv_of_nonneg (by omega), Int.neg_tdiv, Int.neg_neg]
  have h3 : 1 ≤ (-m) / (rate : Int) := by
    rw [Int.le_ediv_iff_mul_le (by omega)]
    omega
  have h4 : (-m) / (rate : Int) ≤ -m := Int.ediv_le_self _ (by omega)
  unfold div
  rw [hq, wrap64_id (by omega) (by omega)]
  omega

/-- A state with a song of 60 hours that began at index 1, at a chunk near its end. -/
def longSong : State Unit :=
  { songs := [⟨(), 1, 9526000000⟩], chunks := [⟨0, 9500000000, 176400⟩], pauses := [] }

/-- C96 refuted: 59.8 hours into that song the infoer shows a negative time, with exact arithmetic it would be right. -/
theorem C96_refuted : (info 44100 1000000000 longSong).1.timeInSong = -202873015299536 ∧
    (Infoer.info 44100 1000000000 longSong).1.timeInSong = 215420501111111 := by
  constructor <;> decide

/-- Before its clock is synchronised an infoer whose machine was started 60 hours after the server's shows a position 56
hours of music ahead instead of 60 hours behind. -/
theorem C96_unsynchronised (σ : Type) (songs : List (Song σ)) (ps : List Toggle) :
    (info 44100 0 ⟨songs, [⟨216000000000000, 441000, 176400⟩], ps⟩).1.sample = 8921585073 ∧
    (Infoer.info 44100 0 ⟨songs, [⟨216000000000000, 441000, 176400⟩], ps⟩).1.sample = -9525159000 := by
  constructor
  · have : (info 44100 0 (⟨songs, [⟨216000000000000, 441000, 176400⟩], ps⟩ : State σ)).1.sample =
        sampleAt 44100 0 (removeOldChunks 44100 0 [⟨216000000000000, 441000, 176400⟩]) := by
      simp only [info]; split <;> rfl
    rw [this]; decide
  · have : (Infoer.info 44100 0 (⟨songs, [⟨216000000000000, 441000, 176400⟩], ps⟩ : State σ)).1.sample =
        Infoer.sampleAt 44100 0 (Infoer.removeOldChunks 44100 0 [⟨216000000000000, 441000, 176400⟩]) := by
      simp only [Infoer.info]; split <;> rfl
    rw [this]; decide

/-- Non-vacuity: a server with the default settings that streams for 100 days, after 10 years of uptime. -/
example : (0 ≤ (315360000000000000 : Int) ∧ (315360000000000000 : Int) ≤ 2 ^ 61) ∧ (0 ≤ (15000000000 : Int) ∧ (15000000000 : Int) ≤ 2 ^ 61) ∧
    (176400 : Nat) ≤ 2 ^ 33 ∧
    ((List.replicate 2160000 ((0 : Nat), ([] : List Nat), ([] : List Nat))).length : Int) *
      StreamMusic.chunkTime (176400 : Nat) (44100 : Nat) < 2 ^ 62 := by
  rw [List.length_replicate]
  decide

/-- Non-vacuity: an infoer after 10 years of uptime, 2 seconds into a chunk and a song. -/
def demo : State Unit :=
  { songs := [⟨(), 13917960000000, 10000000⟩], chunks := [⟨315600000000000000, 13917960000000, 176400⟩],
    pauses := [⟨true, 100⟩] }

example : Bounded demo ∧ (∀ c ∈ demo.chunks, (315600002000000000 : Int) ≤ c.endTime 44100 →
      (c.startTime - 315600002000000000) * (44100 : Nat) ≤ 2 ^ 62) ∧
    (Infoer.info 44100 315600002000000000 demo).1.sample = (13917960088200 : Nat) ∧
    (info 44100 315600002000000000 demo).1.timeInSong = 2000000000 := by
  refine ⟨⟨by decide, by decide, by decide⟩, by decide, by decide, by decide⟩

example : TimesOk [(⟨some 1, 0⟩ : TS Nat), ⟨none, 5⟩] := by
  intro s hs; simp at hs; rcases hs with rfl | rfl <;> decide

end MS.Machine
