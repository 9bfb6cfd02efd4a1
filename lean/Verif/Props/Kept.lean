import Verif.Props.WrongRate
/-!
# C136: how much audio a player keeps

What a player has received and not yet written or skipped it keeps: the samples in its buffer and the chunks its reader has not yet read.
-/
set_option linter.unusedSimpArgs false
set_option linter.unusedVariables false
namespace MS.Kept
open MS.Streamer MS.InSync MS.WrongRate
open MS.StreamMusic (chunkTime messages)
open MS.OnTime (Steady)

variable {α : Type}

/-- A call that ends synchronising has waited for a sample that was not yet a call overdue. -/
theorem run_waits {rate L : Nat} {now : Int} {sy : Bool} {q : List (TS α)} {out : List (Option α)} {sy' : Bool} {r : List (TS α)}
    (h : Run rate L now sy q out sy' r) : 0 < L → sy' = true → ∃ s r', r = s :: r' ∧ now < s.time + samplesDuration rate L := by
  induction h with
  | done => intro h; omega
  | @wait L now q nans r' s h0 h1 h2 h3 h4 => intro _ _; exact ⟨s, r', rfl, h4⟩
  | @start L now q nans late r' tl s f out sy q' h0 h1 h2 h3 h4 h5 h6 h7 h8 ih => exact ih
  | play => intro _ h; cases h
  | @stop L now q vs r p x out sy q' h0 h1 h2 h3 h4 h5 ih =>
    intro hL hsy
    obtain ⟨s, r', e1, e2⟩ := ih (by omega) hsy
    refine ⟨s, r', e1, ?_⟩
    have d1 := dur_add rate vs.length (L - vs.length)
    rw [show vs.length + (L - vs.length) = L by omega] at d1
    have := dur_nonneg rate vs.length
    omega

section
variable {tm : Nat → Int} {G : Int} {rate : Nat} {val : Nat → Option α}

/-- What is left after all calls. -/
theorem loop_kept (hG : 0 ≤ G) (hstep : ∀ i, tm (i + 1) ≤ tm i + G) {len : Nat} (hl : 0 < len) {nows : List Int} : ∀ (l : List Int)
    (c i n : Nat) (sy : Bool) (out : List (Option α)) (sy' : Bool)
    (rest : List (TS α)), nows.drop c = l → (sy = false → Since tm G rate len nows val (len * c) i) →
    playLoop rate len l sy (part tm val i n) = some (out, sy', rest) →
    ∃ i' n', rest = part tm val i' n' ∧ i ≤ i' ∧ i' + n' = i + n ∧ (sy' = false → Since tm G rate len nows val (len * (c + l.length)) i') ∧
      (sy' = true → ∀ now, l.getLast? = some now → 0 < n' ∧ now < tm i' + samplesDuration rate len) := by
  intro l
  induction l with
  | nil =>
    intro c i n sy out sy' rest _ hs h
    simp only [playLoop, Option.some.injEq, Prod.mk.injEq] at h
    exact ⟨i, n, h.2.2.symm, by omega, rfl, by rw [← h.2.1]; simpa using hs, by simp⟩
  | cons now l ih =>
    intro c i n sy out sy' rest hd hs h
    simp only [playLoop] at h
    split at h
    · cases h
    · rename_i o1 s1 q1 e1
      split at h
      · cases h
      · rename_i o2 s2 q2 e2
        simp only [Option.some.injEq, Prod.mk.injEq] at h
        obtain ⟨-, rfl, rfl⟩ := h
        have hc : nows[c]? = some now := by
          have := congrArg List.head? hd
          simpa using this
        have hl' : nows.drop (c + 1) = l := by
          rw [← List.drop_drop, hd]; rfl
        obtain ⟨ids, i', n', a1, a2, a3, a4, a5, a6, a7, a8, -⟩ := run_trace (G := G) hG hstep (nows := nows) (stream_run e1) i n c 0 now rfl hc
          (by omega) (by rw [dur_zero]; omega) (by rw [dur_zero]; omega) hs
        have hw := run_waits (stream_run e1) hl
        subst a1
        obtain ⟨i2, n2, b1, b2, b3, b4, b5⟩ := ih (c + 1) i' n' s1 o2 s2 q2 hl' a8 e2
        refine ⟨i2, n2, b1, by omega, by omega, ?_, ?_⟩
        · intro h
          rw [List.length_cons, show c + (l.length + 1) = c + 1 + l.length by omega]
          exact b4 h
        · intro h nw hnw
          cases l with
          | nil =>
            simp only [List.getLast?_singleton, Option.some.injEq] at hnw
            subst hnw
            simp only [playLoop, Option.some.injEq, Prod.mk.injEq] at e2
            obtain ⟨-, rfl, e3⟩ := e2
            obtain ⟨s, r', f1, f2⟩ := hw h
            rw [← e3, f1] at b1
            have hn2 : 0 < n2 := by
              have := congrArg List.length b1
              rw [part_length] at this
              simp at this
              omega
            refine ⟨hn2, ?_⟩
            have : s = ⟨val i2, tm i2⟩ := by
              have g := part_get (l := []) (r := r') (x := s) b1.symm
              simpa using g
            rw [this] at f2
            exact f2
          | cons x l => exact b5 h nw (by simpa using hnw)

end

/-- After calls at the player's rate: what is kept begins with a sample that is not due long before the last call, up to the drift. -/
theorem kept_from {rate own len size : Nat} (hl : 0 < len) {start J : Int} {val : Nat → Option α} {a n : Nat} {nows : List Int} {now : Int}
    (hs : Steady own len J nows) (hJ : 0 ≤ J) (hnow : nows.getLast? = some now) {out : List (Option α)} {sy' : Bool} {rest : List (TS α)}
    (h : playLoop own len nows true (part (stamp start size rate own) val a n) = some (out, sy', rest)) :
    ∃ i' n', rest = part (stamp start size rate own) val i' n' ∧ a ≤ i' ∧ i' + n' = a + n ∧
      ((0 < n' ∧ now < stamp start size rate own i' + samplesDuration own len) ∨
        ∃ m, m ≤ len * nows.length ∧ m ≤ i' ∧ (∀ i, i' - m ≤ i → i < i' → (val i).isSome) ∧
          now + samplesDuration own len ≤ MS.InSync.due start size rate i' + drift rate own m + drift rate own ((i' - m) % size) +
            J + len + (m / size : Nat) + 3) := by
  obtain ⟨i', n', h1, h2, h3, h4, h5⟩ := loop_kept (G := gap size rate own) (gap_nonneg _ _ _) (stamp_step start size rate own) hl (nows := nows)
    nows 0 a n true out sy' rest (by simp) (by simp) h
  refine ⟨i', n', h1, h2, h3, ?_⟩
  cases sy' with
  | true => exact .inl (h5 rfl now hnow)
  | false =>
    right
    obtain ⟨c, o, nw, k0, m, g1, g2, g3, g4, g5, g6, g7⟩ := h4 rfl
    rw [Nat.zero_add] at g1
    have hpos : 0 < nows.length := by
      cases nows with
      | nil => simp at hnow
      | cons x l => simp
    have hc : c < nows.length := (List.getElem?_eq_some_iff.1 g4).1
    rw [List.getLast?_eq_getElem?] at hnow
    obtain ⟨f1, f2⟩ := hs c (nows.length - 1) nw now (by omega) g4 hnow
    have e2 : len * (nows.length - 1 - c) + len = o + m := by
      have : len * nows.length = len * (nows.length - 1 - c) + len * (c + 1) := by
        rw [← Nat.mul_add]; congr 1; omega
      rw [Nat.mul_add] at this
      omega
    have d1 := dur_add own (len * (nows.length - 1 - c)) len
    rw [e2] at d1
    have d4 := dur_add_le own o m
    obtain ⟨b1, b2⟩ := due_diff start size rate k0 m
    have b3 := MS.OnTime.borders size k0 m
    have hst : stamp start size rate own k0 = MS.InSync.due start size rate k0 + drift rate own (k0 % size) := by
      unfold stamp MS.InSync.due drift; omega
    have hdr : drift rate own m = samplesDuration own m - samplesDuration rate m := rfl
    have hk : i' - m = k0 := by omega
    refine ⟨m, by omega, by omega, by rw [hk]; exact g7, ?_⟩
    rw [hk, g3]
    omega

theorem drift_self (rate m : Nat) : drift rate rate m = 0 := by unfold drift; omega

theorem stamp_self (start : Int) (size rate : Nat) : stamp start size rate rate = MS.InSync.due start size rate := rfl

/-- C136, the right rate. The player has received samples `a`, ..., `a + N - 1` of the stream, `n` of them are or were in its buffer; after
its last call, at `now`, it keeps `rest` and the other `N - n`. If nothing it has received is due later than `lead` after `now`, and no stretch
without silence is longer than `M`, what it keeps (but for one sample) lasts at most the lead, a call, the jitter, and a nanosecond per slot of
a call, per chunk of such a stretch and per chunk kept. How long it has been running does not matter. -/
theorem C136_bounded (rate len size : Nat) (hl : 0 < len) (start J lead : Int) (val : Nat → Option α) (a n N M : Nat) (nows : List Int)
    (now : Int) (hs : Steady rate len J nows) (hJ : 0 ≤ J) (hnow : nows.getLast? = some now) (out : List (Option α)) (sy' : Bool)
    (rest : List (TS α)) (h : playLoop rate len nows true (part (MS.InSync.due start size rate) val a n) = some (out, sy', rest))
    (hN : n ≤ N) (hlead : 0 ≤ lead) (hdue : MS.InSync.due start size rate (a + N - 1) ≤ now + lead)
    (hM : ∀ k, ∃ i, k ≤ i ∧ i ≤ k + M ∧ val i = none) :
    samplesDuration rate (rest.length + (N - n) - 1) ≤
      lead + samplesDuration rate len + J + len + (M / size : Nat) + ((rest.length + (N - n)) / size : Nat) + 4 := by
  rw [← stamp_self] at h
  obtain ⟨i', n', h1, h2, h3, h4⟩ := kept_from hl hs hJ hnow h
  have hlen : rest.length = n' := by rw [h1, part_length]
  rw [hlen]
  have hd0 := dur_nonneg rate len
  rcases Nat.eq_zero_or_pos (n' + (N - n)) with hz | hpos
  · rw [hz, Nat.zero_sub, dur_zero]; generalize M / size = Q; generalize 0 / size = Q'; omega
  obtain ⟨b1, b2⟩ := due_diff start size rate i' (n' + (N - n) - 1)
  have b3 := MS.OnTime.borders size i' (n' + (N - n) - 1)
  rw [show i' + (n' + (N - n) - 1) = a + N - 1 by omega] at b1 b2 b3
  have b4 : (n' + (N - n) - 1) / size ≤ (n' + (N - n)) / size := Nat.div_le_div_right (by omega)
  rcases h4 with ⟨-, h4⟩ | ⟨m, g1, g2, g3, g4⟩
  · rw [stamp_self] at h4
    generalize M / size = Q at *
    omega
  · rw [drift_self, drift_self] at g4
    have hm : m ≤ M := by
      refine Classical.byContradiction fun hlt => ?_
      obtain ⟨i, q1, q2, q3⟩ := hM (i' - m)
      have := g3 i q1 (by omega)
      rw [q3] at this; cases this
    have b5 : m / size ≤ M / size := Nat.div_le_div_right hm
    omega

/-- C136, another rate. The buffer holds samples without a break, as in `C135_song`, and everything due until `lead` after the last call has been
received. Then what the player keeps lasts longer, from when it has begun to play (call `c`), by the drift: at a lower rate than the server's it
grows in step with the time played. -/
theorem C136_grows (rate own len size : Nat) (hl : 0 < len) (start J lead : Int) (val : Nat → Option α) (a n N : Nat) (nows : List Int)
    (now : Int) (hv : ∀ i, a ≤ i → i < a + n → (val i).isSome) (hs : Steady own len J nows) (hnow : nows.getLast? = some now)
    (out : List (Option α)) (sy' : Bool) (rest : List (TS α))
    (h : playLoop own len nows true (part (stamp start size rate own) val a n) = some (out, sy', rest))
    (hN : n ≤ N) (hrec : now + lead ≤ MS.InSync.due start size rate (a + N)) :
    out = List.replicate (len * nows.length) none ∨ ∃ c k0, c < nows.length ∧ (∀ j, j < len * c → out[j]? = some none) ∧
      (∀ m, m < len * (nows.length - c) → out[len * c + m]? = some (val (k0 + m)) ∧ (val (k0 + m)).isSome) ∧
      lead + drift rate own (len * (nows.length - c)) + drift rate own (k0 % size) ≤
        samplesDuration rate (rest.length + (N - n)) + samplesDuration own len + J + gap size rate own + 4 := by
  rcases song (G := gap size rate own) (gap_nonneg _ _ _) (stamp_step start size rate own) hl nows a n out sy' rest hv h with
    g | ⟨c, k0, nw, c1, c2, c3, c4, c5, c6, ⟨r1, r2⟩, c7⟩
  · exact .inl g
  right
  have hc : c < nows.length := (List.getElem?_eq_some_iff.1 c1).1
  refine ⟨c, k0, hc, c6, fun m hm => ⟨(c7 m hm).2, hv _ (by omega) (c7 m hm).1⟩, ?_⟩
  rw [List.getLast?_eq_getElem?] at hnow
  obtain ⟨f1, f2⟩ := hs c (nows.length - 1) nw now (by omega) c1 hnow
  have e : len * (nows.length - c) = len * (nows.length - 1 - c) + len := by
    rw [show nows.length - c = nows.length - 1 - c + 1 by omega, Nat.mul_add, Nat.mul_one]
  have d1 := dur_add own (len * (nows.length - 1 - c)) len
  have d2 := dur_add_le own (len * (nows.length - 1 - c)) len
  rw [← e] at d1 d2
  generalize len * (nows.length - c) = m at *
  have hlen : rest.length = a + n - (k0 + m) := by rw [r1, part_length]
  obtain ⟨b1, b2⟩ := due_diff start size rate k0 (m + (rest.length + (N - n)))
  rw [show k0 + (m + (rest.length + (N - n))) = a + N by omega] at b1 b2
  have b3 := dur_add_le rate m (rest.length + (N - n))
  have hst : stamp start size rate own k0 = MS.InSync.due start size rate k0 + drift rate own (k0 % size) := by
    unfold stamp MS.InSync.due drift; omega
  have hdr : drift rate own m = samplesDuration own m - samplesDuration rate m := rfl
  omega

open MS.StreamLoop (Cfg)
open MS.PlaylistRun MS.PauseHeard
open MS.Pipeline (received heard)
open MS.OnTime (heardAt)

variable {β : Type}

/-- C136, from the server. The server has streamed any playlist. A player at its rate has handled its messages from the `a`-th on, `n` of them,
and its reader has put the samples `buffer` into the buffer; it was called, last at `now`, and left `rest`. So it keeps `rest` and what it has
received that is not in `buffer`. If the last chunk handled ends at most `lead` after `now`, and no stretch of the stream of more than `M` samples
is without a silent one, this lasts at most the lead, a call, the jitter and the roundings. -/
theorem C136_player (c : Cfg (Option β × Option β)) (cap : Nat) (songs : List String) (as : List Act) (s : St (Option β))
    (start delay J lead : Int) (size rate len a n M : Nat) (hl : 0 < len) (hn : 0 < n) (hsz : 0 < size)
    (h : run none c (init cap songs) as = some s) (hz : Asks size as)
    (nows : List Int) (now : Int) (hs : Steady rate len J nows) (hJ : 0 ≤ J) (hnow : nows.getLast? = some now)
    (racts : List (MS.ReadChunks.Act (β × Option β))) (r : MS.ReadChunks.St (β × Option β))
    (hr : MS.ReadChunks.run (MS.ReadChunks.init rate) racts = some r) (han : a + n ≤ s.chans.chunks.length)
    (harr : MS.ReadChunks.arrivals racts =
      (((messages start delay size rate s.chans.chunks).map (fun m => received m.1)).drop a).take n)
    (buffer : List (TS (β × Option β))) (hb : buffer <+: r.adds)
    (out : List (Option (β × Option β))) (sy' : Bool) (rest : List (TS (β × Option β)))
    (hplay : playLoop rate len nows true buffer = some (out, sy', rest)) (hlead : 0 ≤ lead)
    (hdue : ∀ q i, (messages start delay size rate s.chans.chunks)[a + n - 1]? = some (q, i) → q.startTime + chunkTime size rate ≤ now + lead)
    (hM : ∀ k, ∃ i, k ≤ i ∧ i ≤ k + M ∧ heardAt s i = none) :
    buffer.length ≤ n * size ∧ samplesDuration rate (rest.length + (n * size - buffer.length) - 1) ≤
      lead + samplesDuration rate len + J + len + (M / size : Nat) + ((rest.length + (n * size - buffer.length)) / size : Nat) + 4 := by
  have h1 := (run_sim as (inv_init none cap songs) h).1
  have z1 := sized_run as (s := init cap songs) ⟨by simp [init, Fill.init], by simp [init, Fill.init]⟩ hz h
  have hpre := hb.trans (adds_part h1 z1 start delay rate racts r hr a n han harr)
  obtain ⟨t, ht⟩ := hpre
  have hbuf := part_prefix ht.symm
  have hbl : buffer.length ≤ n * size := by
    have := congrArg List.length ht
    rw [part_length, List.length_append] at this
    omega
  refine ⟨hbl, ?_⟩
  rw [hbuf] at hplay
  obtain ⟨q, i, q1, q2, -, -⟩ := MS.OnTime.message_values h1 z1 (start := start) (delay := delay) (rate := rate) (n := a + n - 1) (by omega)
  have hd := hdue q i q1
  refine C136_bounded rate len size hl (start + delay) J lead (heardAt s) (a * size) buffer.length (n * size) M nows now hs hJ hnow out sy' rest
    hplay hbl hlead ?_ hM
  have hns : size ≤ n * size := Nat.le_mul_of_pos_left _ hn
  have e : a * size + n * size - 1 = (size - 1) + size * (a + n - 1) := by
    have : (a + n) * size = size * (a + n - 1) + size := by
      rw [Nat.mul_comm, ← Nat.mul_succ]; congr 1; omega
    rw [Nat.add_mul] at this
    omega
  have e1 : (a * size + n * size - 1) / size = a + n - 1 := by
    rw [e, Nat.add_mul_div_left _ _ hsz, Nat.div_eq_of_lt (by omega)]; omega
  have e2 : (a * size + n * size - 1) % size = size - 1 := by
    rw [e, Nat.add_mul_mod_self_left, Nat.mod_eq_of_lt (by omega)]
  have hds := dur_add rate (size - 1) 1
  rw [show size - 1 + 1 = size by omega] at hds
  have hd1 := dur_nonneg rate 1
  rw [MS.InSync.chunkTime_dur] at hd q2
  unfold MS.InSync.due
  rw [e1, e2, MS.InSync.chunkTime_dur]
  omega

/-- The player of `MS.WrongRate.ex_slow`, after its four calls, keeps 6 of 16 samples received; at its rate it should keep none that is due before
the last call (at 4 s), but the first it keeps was due at 2.5 s. -/
theorem ex_slow : (playLoop 2 2 ((List.range 4).map (fun c => 1000000000 + samplesDuration 2 (2 * c))) true
    (part (stamp 0 4 4 2) some 0 16)).map (fun x => x.2.2.map (·.val)) =
    some [some 10, some 11, some 12, some 13, some 14, some 15] ∧ MS.InSync.due 0 4 4 10 = 2500000000 := by
  refine ⟨?_, by decide +kernel⟩
  simp only [Option.map]
  decide +kernel

/-- Every ninth sample is silent. -/
def exVal (i : Nat) : Option Nat := if i % 9 = 8 then none else some i

/-- At the right rate: it has received 32 samples, 24 of them are or were in its buffer; it keeps 12. -/
theorem ex_right : (playLoop 4 4 ((List.range 4).map (fun c => 1000000000 + samplesDuration 4 (4 * c))) true
    (part (MS.InSync.due 0 4 4) exVal 0 24)).map (fun x => (x.1, x.2.2.map (·.val))) =
    some ([some 4, some 5, some 6, some 7, none, none, none, none, none, none, none, none, some 16, none, none, none],
      [some 18, some 19, some 20, some 21, some 22, some 23]) := by
  simp only [Option.map]
  decide +kernel

/-- `C136_bounded` applies to it. -/
theorem ex_bounded : ∃ out sy' rest, playLoop 4 4 ((List.range 4).map (fun c => 1000000000 + samplesDuration 4 (4 * c))) true
    (part (MS.InSync.due 0 4 4) exVal 0 24) = some (out, sy', rest) ∧
    samplesDuration 4 (rest.length + (32 - 24) - 1) ≤ 5000000011 + ((rest.length + (32 - 24)) / 4 : Nat) := by
  have h := ex_right
  revert h
  generalize hp : playLoop 4 4 ((List.range 4).map (fun c => 1000000000 + samplesDuration 4 (4 * c))) true
    (part (MS.InSync.due 0 4 4) exVal 0 24) = res
  cases res with
  | none => intro h; cases h
  | some x =>
    intro _
    obtain ⟨out, sy', rest⟩ := x
    refine ⟨out, sy', rest, rfl, ?_⟩
    have := C136_bounded 4 4 4 (by decide) 0 1 4000000000 exVal 0 24 32 8 _ 4000000000 (MS.OnTime.steady_exact 4 4 4 1000000000) (by decide)
      (by decide) out sy' rest hp (by decide) (by decide) (by decide) (by
        intro k
        refine ⟨k + (8 - k % 9), by omega, by omega, ?_⟩
        unfold exVal
        rw [if_pos (by omega)])
    have e : samplesDuration 4 4 = 1000000000 := by decide
    rw [e] at this
    omega

end MS.Kept
