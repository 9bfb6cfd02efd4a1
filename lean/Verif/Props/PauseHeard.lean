import Verif.Props.PlaylistRun
import Verif.Props.Ticker
import Verif.Lemmas.Streamer
/-!
# C128: how soon a command is heard

`Verif.Props.PlaylistRun` bounds, in samples, how soon a command takes effect. Here `streamMusic` reads the playlist, chunk by chunk
at the ticks of its ticker, and stamps the chunks with the times at which they are to be played. The bound becomes one in time:

  time of the command + stream delay + what the channels hold (one second) + a block of 512 samples (two for a jump),

whatever the schedule, and however long the iterations of `streamMusic` take.
-/
namespace MS.PauseHeard
open MS.StreamLoop (Cfg)
open MS.Streamer (samplesDuration dur_nonneg dur_add dur_mono)
open MS.Ticker (iterations iterations_spec ticks_start le_of_ticks)
open MS.PlaylistRun MS.StreamMusic

variable {β : Type}

/-- Specification: how many calls of `Fill` have begun. -/
def begun (s : St β) : Nat := s.chans.chunks.length + if s.chans.cur.isSome then 1 else 0

/-- Specification: at time `T` the calls of `Fill` made by `streamMusic` (ticker created at `t0` with period `P`, iterations taking
`ds`) are those begun in `s`: the last of them has got its tick. -/
def At (P t0 T : Int) (ds : List Int) (s : St β) : Prop :=
  t0 ≤ T ∧ (begun s = 0 ∨ ∃ it, (iterations P t0 t0 t0 ds)[begun s - 1]? = some it ∧ it.1 ≤ T)

/-- Specification: `streamMusic` asks for `size` samples each time. -/
def Asks (size : Nat) (as : List Act) : Prop := ∀ n, .fill n ∈ as → n = size

/-- Invariant: all calls are for `size` samples. -/
def Sized (size : Nat) (f : Fill.St β) : Prop :=
  (∀ x ∈ f.chunks, x.2.1.length = size) ∧ (∀ n lo hi, f.cur = some (n, lo, hi) → n = size)

theorem sized_fill {size : Nat} {f f' : Fill.St β} {a : Fill.Act β} (h : Sized size f) (ha : ∀ n, a = .fill n → n = size)
    (e : Fill.step f a = some f') : Sized size f' := by
  obtain ⟨h1, h2⟩ := h
  cases a <;> simp only [Fill.step] at e
  case pushLow l hh => split at e <;> (try split at e) <;> cases e; exact ⟨h1, h2⟩
  case pushHigh => split at e <;> (try split at e) <;> cases e; exact ⟨h1, h2⟩
  case fill n =>
    split at e <;> cases e
    refine ⟨h1, ?_⟩
    intro n' lo hi hc
    simp only [Option.some.injEq, Prod.mk.injEq] at hc
    rw [← hc.1]; exact ha n rfl
  case readLow =>
    split at e
    · rename_i n lo hi x q hc hq
      split at e <;> cases e
      refine ⟨h1, ?_⟩
      intro n' lo' hi' hc'
      simp only [Option.some.injEq, Prod.mk.injEq] at hc'
      rw [← hc'.1]; exact h2 _ _ _ hc
    · cases e
  case readHigh =>
    split at e
    · rename_i n lo hi x q hc hq
      split at e <;> cases e
      refine ⟨h1, ?_⟩
      intro n' lo' hi' hc'
      simp only [Option.some.injEq, Prod.mk.injEq] at hc'
      rw [← hc'.1]; exact h2 _ _ _ hc
    · cases e
  case ret =>
    split at e
    · rename_i n lo hi hc
      split at e
      · rename_i hl
        cases e
        refine ⟨?_, by simp⟩
        intro x hx
        rcases List.mem_append.mp hx with hx | hx
        · exact h1 x hx
        · simp only [List.mem_singleton] at hx
          subst hx
          exact hl.1.trans (h2 _ _ _ hc)
      · cases e
    · cases e

theorem sized_step {nan : β} {c : Cfg (β × β)} {size : Nat} {s s' : St β} {a : Act} (h : Sized size s.chans)
    (ha : ∀ n, a = .fill n → n = size) (e : step nan c s a = some s') : Sized size s'.chans := by
  unfold step at e
  split at e
  · cases e
  · cases a <;> simp only at e
    case loop =>
      split at e
      · rw [control_chans e]; exact h
      · unfold pushNext at e
        split at e <;> simp only [Option.map_eq_some_iff] at e <;> obtain ⟨ch, e1, rfl⟩ := e <;>
          exact sized_fill h (by simp) e1
    case jumpToken => split at e <;> cases e; exact h
    case jumpWrite p => cases e; exact h
    case setPlaying b => cases e; exact h
    case edit l => cases e; exact h
    case fill n =>
      simp only [Option.map_eq_some_iff] at e
      obtain ⟨ch, e1, rfl⟩ := e
      refine sized_fill h ?_ e1
      intro n' hn
      cases hn
      exact ha n rfl
    all_goals
      simp only [Option.map_eq_some_iff] at e
      obtain ⟨ch, e1, rfl⟩ := e
      exact sized_fill h (by simp) e1

theorem sized_run {nan : β} {c : Cfg (β × β)} {size : Nat} (as : List Act) {s s' : St β} (h : Sized size s.chans)
    (ha : Asks size as) (e : run nan c s as = some s') : Sized size s'.chans := by
  induction as generalizing s with
  | nil => cases e; exact h
  | cons a as ih =>
    simp only [run] at e
    split at e
    · rename_i t ht
      exact ih (sized_step h (fun n hn => ha n (by simp [hn])) ht) (fun n hn => ha n (by simp [hn])) e
    · cases e

theorem sum_sized {size : Nat} : ∀ (cs : List (Nat × List β × List β)), (∀ x ∈ cs, x.2.1.length = size) →
    (cs.map (fun c => c.2.1.length)).sum = cs.length * size
  | [], _ => by simp
  | x :: cs, h => by
    simp only [List.map_cons, List.sum_cons, List.length_cons]
    rw [h x (by simp), sum_sized cs (fun y hy => h y (by simp [hy])), Nat.add_mul, Nat.one_mul, Nat.add_comm]

/-- What has been read or is being read are the calls begun. -/
theorem read_begun {nan : β} {cap size : Nat} {s : St β} (h : Inv nan cap s) (hz : Sized size s.chans) :
    s.chans.readIdx + asked s = begun s * size := by
  have h1 := h.ch.sum
  rw [sum_sized _ hz.1] at h1
  unfold asked begun
  cases hc : s.chans.cur with
  | none => simp [h1]
  | some t =>
    obtain ⟨n, lo, hi⟩ := t
    have := hz.2 n lo hi hc
    simp only [Option.isSome_some, if_true, Nat.add_mul, Nat.one_mul]
    omega

theorem windows_index {S : List (β × β)} {size : Nat} : ∀ (cs : List (Nat × List β × List β)) (start : Nat),
    Fill.Windows S start cs → (∀ x ∈ cs, x.2.1.length = size) → ∀ n x, cs[n]? = some x → x.1 = start + n * size
  | [], _, _, _, n, x, h => by simp at h
  | (k, lo, hi) :: cs, start, hw, hz, n, x, h => by
    obtain ⟨h1, _, _, _, h5⟩ := hw
    cases n with
    | zero => simp at h; subst h; simp [h1]
    | succ n =>
      rw [List.getElem?_cons_succ] at h
      have := windows_index cs _ h5 (fun y hy => hz y (by simp [hy])) n x h
      rw [hz (k, lo, hi) (by simp)] at this
      rw [this, Nat.add_mul]
      omega

theorem dur_mul (rate size k : Nat) : (k : Int) * samplesDuration rate size ≤ samplesDuration rate (k * size) := by
  induction k with
  | zero => simp [dur_nonneg]
  | succ k ih =>
    have := dur_add rate (k * size) size
    rw [Nat.add_mul, Nat.one_mul]
    rw [Int.natCast_add, Int.add_mul]
    simp only [Int.natCast_one, Int.one_mul]
    omega

theorem chunkTime_dur (size rate : Nat) : chunkTime size rate = samplesDuration rate size := by
  simp only [chunkTime, samplesDuration, Int.mul_comm]

/-- By time `T` no more calls have begun than periods have passed. -/
theorem begun_le {P t0 T : Int} {ds : List Int} {s : St β} (hP : 0 < P) (hd : ∀ d ∈ ds, 0 ≤ d) (h : At P t0 T ds s) :
    t0 + (begun s : Int) * P ≤ T := by
  obtain ⟨h0, h | ⟨it, h1, h2⟩⟩ := h
  · rw [h]; simpa using h0
  · by_cases hb : begun s = 0
    · rw [hb]; simpa using h0
    · obtain ⟨_, b, _, _⟩ := iterations_spec hP ds t0 t0 (Int.le_refl _) hd _ it h1
      rw [ticks_start] at b
      have := le_of_ticks (t0 := t0) (t := it.1) (k := begun s) hP (by omega)
      omega

/-- Value `j` of chunk `n`, among those less than `extra` behind the calls begun, is due in time. -/
theorem due_le (start t0 delay T : Int) (size rate extra m n j : Nat) (hm : t0 + (m : Int) * chunkTime size rate ≤ T)
    (hj : j < size) (hi : n * size + j ≤ m * size + extra) :
    start + delay + n * chunkTime size rate + samplesDuration rate j ≤ T + delay + (start - t0) + samplesDuration rate extra := by
  rw [chunkTime_dur] at hm ⊢
  have hnn := dur_nonneg rate size
  by_cases hn : n < m
  · have h1 : ((n : Int) + 1) * samplesDuration rate size ≤ (m : Int) * samplesDuration rate size :=
      Int.mul_le_mul_of_nonneg_right (by omega) hnn
    rw [Int.add_mul, Int.one_mul] at h1
    have h2 := dur_mono rate (Nat.le_of_lt hj)
    have h3 := dur_nonneg rate extra
    omega
  · obtain ⟨k, rfl⟩ : ∃ k, n = m + k := ⟨n - m, by omega⟩
    have h1 := dur_mul rate size k
    have h2 := dur_add rate (k * size) j
    have h3 : samplesDuration rate (k * size + j) ≤ samplesDuration rate extra := by
      refine dur_mono rate ?_
      rw [Nat.add_mul] at hi
      omega
    rw [Int.natCast_add, Int.add_mul]
    omega

/-- What the messages carry. -/
theorem message {now delay : Int} {size rate : Nat} {fills : List (Nat × List β × List β)} {n : Nat} {q : QueueChunk β}
    {i : ChunkInfo} (h : (messages now delay size rate fills)[n]? = some (q, i)) :
    ∃ x, fills[n]? = some x ∧ q.startTime = now + delay + n * chunkTime size rate ∧ q.low = x.2.1 ∧ q.high = x.2.2 := by
  have hn : n < fills.length := by
    refine Classical.byContradiction fun hn => ?_
    have hl : ∀ (fs : List (Nat × List β × List β)) (a t : Int) (k : Int), (messagesFrom a t size k fs).length = fs.length := by
      intro fs
      induction fs with
      | nil => intros; rfl
      | cons f fs ih => intro a t k; obtain ⟨x, y, z⟩ := f; simp [messagesFrom, ih]
    unfold messages at h
    rw [List.getElem?_eq_none (by rw [hl]; omega)] at h
    cases h
  unfold messages at h
  rw [messagesFrom_get _ _ _ _ _ _ hn] at h
  simp only [Option.some.injEq, Prod.mk.injEq, Int.zero_add] at h
  obtain ⟨rfl, _⟩ := h
  exact ⟨fills[n], by simp [hn], rfl, rfl, rfl⟩

/-- C128, pausing: at time `T` (the server's clock) the playlist is paused, and stays so. Whatever chunk is sent, then or later, its
values due more than the stream delay, the time the channels hold, and a block after `T` are silence. `t0 - start`, the time between
reading the clock and creating the ticker, is gained. -/
theorem C128_pause (nan : β) (c : Cfg (β × β)) (cap : Nat) (songs : List String) (as as' : List Act) (s s' : St β)
    (start t0 delay T : Int) (size rate : Nat) (ds : List Int) (hP : 0 < chunkTime size rate) (hd : ∀ d ∈ ds, 0 ≤ d)
    (h : run nan c (init cap songs) as = some s) (h' : run nan c s as' = some s') (hz : Asks size as) (hz' : Asks size as')
    (hT : At (chunkTime size rate) t0 T ds s) (hp : s.pl.playing = false) (hr : .setPlaying true ∉ as')
    (n : Nat) (q : QueueChunk β) (i : ChunkInfo) (hm : (messages start delay size rate s'.chans.chunks)[n]? = some (q, i))
    (j : Nat) (hj : j < q.low.length)
    (hdue : T + delay - (t0 - start) + samplesDuration rate (cap + 512) < q.startTime + samplesDuration rate j) :
    q.low[j]? = some nan ∧ q.high[j]? = some nan := by
  have h1 := (run_sim as (inv_init nan cap songs) h).1
  have h2 := (run_sim as' h1 h').1
  have z1 := sized_run as (s := init cap songs) ⟨by simp [init, Fill.init], by simp [init, Fill.init]⟩ hz h
  have z2 := sized_run as' z1 hz' h'
  obtain ⟨x, x1, x2, x3, x4⟩ := message hm
  obtain ⟨fi, lo, hi⟩ := x
  simp only at x3 x4
  have hx := windows_index _ _ (chunks_windows h2) z2.1 n _ x1
  simp only [Nat.zero_add] at hx
  have hmem : (fi, lo, hi) ∈ s'.chans.chunks := List.mem_of_getElem? x1
  have hlen : lo.length = size := z2.1 _ hmem
  rw [x3] at hj ⊢
  rw [x4]
  refine C126_pause nan c cap songs as as' s s' h hp h' hr fi lo hi hmem j hj ?_
  rw [read_begun h1 z1, hx]
  refine Classical.byContradiction fun hlt => ?_
  have := due_le start t0 delay T size rate (cap + 512) (begun s) n j (begun_le hP hd hT) (by omega) (by omega)
  omega

/-- C128, jumping: at time `T` a jump has been accepted while a song is streamed. Of that song nothing is due more than the stream
delay, the time the channels hold and two blocks after `T`: what is due later is silence until another song has been announced. -/
theorem C128_jump (nan : β) (c : Cfg (β × β)) (cap : Nat) (songs : List String) (as as' : List Act) (s s' : St β)
    (start t0 delay T : Int) (size rate : Nat) (ds : List Int) (hP : 0 < chunkTime size rate) (hd : ∀ d ∈ ds, 0 ≤ d)
    (h : run nan c (init cap songs) as = some s) (h' : run nan c s as' = some s') (hz : Asks size as) (hz' : Asks size as')
    (hT : At (chunkTime size rate) t0 T ds s) (hs : rest s.pl.pc ≠ none) (ht : 0 < s.pl.tokens)
    (hnews : s'.pl.news.length ≤ s.pl.news.length)
    (n : Nat) (q : QueueChunk β) (i : ChunkInfo) (hm : (messages start delay size rate s'.chans.chunks)[n]? = some (q, i))
    (j : Nat) (hj : j < q.low.length)
    (hdue : T + delay - (t0 - start) + samplesDuration rate (cap + 1024) < q.startTime + samplesDuration rate j) :
    q.low[j]? = some nan ∧ q.high[j]? = some nan := by
  have h1 := (run_sim as (inv_init nan cap songs) h).1
  have h2 := (run_sim as' h1 h').1
  have z1 := sized_run as (s := init cap songs) ⟨by simp [init, Fill.init], by simp [init, Fill.init]⟩ hz h
  have z2 := sized_run as' z1 hz' h'
  obtain ⟨x, x1, x2, x3, x4⟩ := message hm
  obtain ⟨fi, lo, hi⟩ := x
  simp only at x3 x4
  have hx := windows_index _ _ (chunks_windows h2) z2.1 n _ x1
  simp only [Nat.zero_add] at hx
  have hmem : (fi, lo, hi) ∈ s'.chans.chunks := List.mem_of_getElem? x1
  have hlen : lo.length = size := z2.1 _ hmem
  rw [x3] at hj ⊢
  rw [x4]
  obtain ⟨hl, B, Y, hst, hB, _, hY⟩ := C126_jump nan c cap songs as as' s s' h hs ht h'
  obtain ⟨g1, g2⟩ := windows_get (chunks_windows h2) hmem hj
  have hge : begun s * size + cap + 1024 ≤ fi + j := by
    refine Classical.byContradiction fun hlt => ?_
    have := due_le start t0 delay T size rate (cap + 1024) (begun s) n j (begun_le hP hd hT) (by omega) (by omega)
    omega
  rw [read_begun h1 z1] at hl
  have hlt : fi + j < (stream s').length := by
    have : (lo[j]?).isSome := by simp [hj]
    rw [g1] at this
    simpa using this
  have : (stream s')[fi + j]? = some none := by
    rw [hst] at hlt ⊢
    simp only [List.length_append] at hlt
    rw [List.getElem?_append_right (by simp; omega), List.getElem?_eq_getElem (by simp; omega)]
    exact congrArg some (hY hnews _ (List.getElem_mem _))
  rw [g1, g2]
  simp [this, value]

/-- C128, resuming: at time `T` the playlist is playing, in a song, no jump being under way, and stays so. There is a sample number
`k` that is due at most the stream delay, the time the channels hold and a block after `T`, and from which on the values sent are those
of the song announced last, from the first of its samples not streamed yet to its end. -/
theorem C128_resume (nan : β) (c : Cfg (β × β)) (cap : Nat) (songs : List String) (as as' : List Act) (s s' : St β)
    (start t0 delay T : Int) (size rate : Nat) (ds : List Int) (hP : 0 < chunkTime size rate) (hd : ∀ d ∈ ds, 0 ≤ d)
    (h : run nan c (init cap songs) as = some s) (h' : run nan c s as' = some s') (hz : Asks size as) (hz' : Asks size as')
    (hT : At (chunkTime size rate) t0 T ds s) (hs : rest s.pl.pc ≠ none) (hp : s.pl.playing = true) (ht : s.pl.tokens = 0)
    (hr : .setPlaying false ∉ as') (hj : .jumpToken ∉ as') :
    ∃ k a name len l m, s.pl.news.getLast? = some (a, name, len) ∧ c.dec name = some l ∧
      m = (Spec.audio ((stream s).drop a)).length ∧ k = (stream s).length ∧
      (∀ n j, j < size → n * size + j ≤ k →
        start + delay + n * chunkTime size rate + samplesDuration rate j ≤
          T + delay - (t0 - start) + samplesDuration rate (cap + 512)) ∧
      ∀ n q i j x, (messages start delay size rate s'.chans.chunks)[n]? = some (q, i) → j < q.low.length → k ≤ n * size + j →
        l[m + (n * size + j - k)]? = some x → q.low[j]? = some x.1 ∧ q.high[j]? = some x.2 := by
  have h1 := (run_sim as (inv_init nan cap songs) h).1
  have h2 := (run_sim as' h1 h').1
  have z1 := sized_run as (s := init cap songs) ⟨by simp [init, Fill.init], by simp [init, Fill.init]⟩ hz h
  have z2 := sized_run as' z1 hz' h'
  obtain ⟨a, name, len, l, c1, c2, c3, _, c5⟩ := C126_resume nan c cap songs as as' s s' h hs hp ht h' hr hj
  rw [read_begun h1 z1] at c3
  refine ⟨_, a, name, len, l, _, c1, c2, rfl, rfl, ?_, ?_⟩
  · intro n j hj hk
    have := due_le start t0 delay T size rate (cap + 512) (begun s) n j (begun_le hP hd hT) hj (by omega)
    omega
  · intro n q i j x hm hj hk hx
    obtain ⟨y, x1, x2, x3, x4⟩ := message hm
    obtain ⟨fi, lo, hi⟩ := y
    simp only at x3 x4
    have hxi := windows_index _ _ (chunks_windows h2) z2.1 n _ x1
    simp only [Nat.zero_add] at hxi
    have hmem : (fi, lo, hi) ∈ s'.chans.chunks := List.mem_of_getElem? x1
    rw [x3] at hj ⊢
    rw [x4]
    obtain ⟨g1, g2⟩ := windows_get (chunks_windows h2) hmem hj
    have hlt : fi + j < (stream s').length := by
      have : (lo[j]?).isSome := by simp [hj]
      rw [g1] at this
      simpa using this
    have := c5 _ x hx (by omega)
    rw [show (stream s).length + (n * size + j - (stream s).length) = fi + j by omega] at this
    rw [g1, g2]
    simp [this, value]

/-! The hypotheses can be met. -/

/-- A schedule: return or read when possible, else let the playlist go on. -/
def greedy (c : Cfg (Nat × Nat)) : Nat → St Nat → List Act
  | 0, _ => []
  | k + 1, s =>
    match [Act.ret, .readLow, .readHigh, .loop].find? (fun a => (step 0 c s a).isSome) with
    | none => []
    | some a => match step 0 c s a with
      | none => []
      | some t => if t.chans.cur.isNone then [a] else a :: greedy c k t

/-- The playlist is paused while the samples of a song are being pushed, before the first chunk is asked for. -/
def exState : Option (St Nat) :=
  run 0 exCfg (init 2 ["a"]) [.setPlaying true, .loop, .loop, .loop, .loop, .loop, .loop, .loop, .setPlaying false]

/-- Then a chunk of 600 samples (two a second) is asked for and read. -/
def exAfter (s : St Nat) : List Act := .fill 600 :: ((step 0 exCfg s (.fill 600)).map (greedy exCfg 4000)).getD []

/-- The state meets the hypotheses of `C128_pause`, and sample 515 is due after the bound; what was pushed already is heard. -/
theorem ex_pause : (exState.bind fun s => (run 0 exCfg s (exAfter s)).map fun t =>
      (s.pl.playing, begun s, t.chans.chunks.map (fun x => (x.2.1.take 5, x.2.1.length)))) =
    some (false, 0, [([1, 3, 5, 0, 0], 600)]) ∧
    (0 : Int) + 0 - (0 - 0) + samplesDuration 2 (2 + 512) < 0 + samplesDuration 2 515 := by
  constructor <;> decide +kernel

/-- The start meets `At`; so does the state with one call begun, from the first tick on. -/
theorem ex_at (s : St Nat) (h : begun s ≤ 1) (T : Int) (hT : 1000000000 ≤ T) : At (chunkTime 2 2) 0 T [5] s := by
  refine ⟨by omega, ?_⟩
  by_cases h0 : begun s = 0
  · exact .inl h0
  · refine .inr ⟨(1000000000, 1000000005), ?_, hT⟩
    rw [show begun s = 1 by omega]
    decide +kernel

end MS.PauseHeard
