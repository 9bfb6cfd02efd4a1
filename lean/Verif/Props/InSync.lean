import Verif.Props.Streamer
import Verif.Props.StreamMusic
import Verif.Props.Timing
/-!
# Property C71: players play the same sample at the same time

A song stretch of the server's stream, the samples of which carry the due times of C13 (`due`), in the buffers of players.
Output slot `m` after the start of a `Stream` call at clock time `now` is the `m`-th sample the player writes from then on; the
sound device is taken to play the samples written at the nominal rate, starting when the call starts (the delay of the device is
not modelled: the code does not know it either).
-/
set_option linter.unusedSimpArgs false
set_option linter.unusedVariables false
namespace MS.InSync
open MS.Streamer
open MS.StreamMusic (chunkTime)

variable {α : Type}

/-- Specification: when sample `i` of the stream is due, for chunks of `size` samples, the first of which starts at `start`. -/
def due (start : Int) (size rate i : Nat) : Int :=
  start + ((i / size : Nat) : Int) * chunkTime size rate + samplesDuration rate (i % size)

/-- Specification: samples `a`, `a + 1`, ..., `a + n - 1` of the stream `v` with their due times. -/
def stretch (start : Int) (size rate : Nat) (v : Nat → α) (a n : Nat) : List (TS α) :=
  (List.range' a n).map (fun i => ⟨some (v i), due start size rate i⟩)

theorem chunkTime_dur (size rate : Nat) : chunkTime size rate = samplesDuration rate size := by
  simp [samplesDuration, chunkTime, Int.mul_comm]

theorem dur_mul_le (rate size c : Nat) (r : Nat) :
    samplesDuration rate (c * size + r) ≤ c * samplesDuration rate size + samplesDuration rate r + c := by
  induction c with
  | zero => simp
  | succ c ih =>
    have h1 := dur_add_le rate size (c * size + r)
    rw [show size + (c * size + r) = (c + 1) * size + r by rw [Nat.add_mul]; omega] at h1
    have : ((c + 1 : Nat) : Int) * samplesDuration rate size = c * samplesDuration rate size + samplesDuration rate size := by
      rw [Int.natCast_add, Int.add_mul]; simp
    omega

theorem dur_mul_ge (rate size c : Nat) (r : Nat) :
    c * samplesDuration rate size + samplesDuration rate r ≤ samplesDuration rate (c * size + r) := by
  induction c with
  | zero => simp
  | succ c ih =>
    have h1 := dur_add rate size (c * size + r)
    rw [show size + (c * size + r) = (c + 1) * size + r by rw [Nat.add_mul]; omega] at h1
    have : ((c + 1 : Nat) : Int) * samplesDuration rate size = c * samplesDuration rate size + samplesDuration rate size := by
      rw [Int.natCast_add, Int.add_mul]; simp
    omega

/-- The due times of two samples `m` apart differ by the duration of `m` samples, up to one nanosecond for each chunk border. -/
theorem due_diff (start : Int) (size rate k m : Nat) :
    due start size rate (k + m) - due start size rate k ≤ samplesDuration rate m + 1 ∧
    samplesDuration rate m - (((k + m) / size - k / size : Nat) : Int) ≤ due start size rate (k + m) - due start size rate k := by
  have hq : k / size ≤ (k + m) / size := Nat.div_le_div_right (by omega)
  obtain ⟨c, hc⟩ := Nat.exists_eq_add_of_le hq
  have e1 := Nat.div_add_mod k size
  have e2 := Nat.div_add_mod (k + m) size
  unfold due
  rw [chunkTime_dur]
  have hsum : m + k % size = c * size + (k + m) % size := by
    rw [hc, Nat.mul_add, Nat.mul_comm size c] at e2
    omega
  have a1 := dur_add rate m (k % size)
  have a2 := dur_add_le rate m (k % size)
  rw [hsum] at a1 a2
  have b1 := dur_mul_le rate size c ((k + m) % size)
  have b2 := dur_mul_ge rate size c ((k + m) % size)
  have hx : (((k + m) / size : Nat) : Int) * samplesDuration rate size =
      ((k / size : Nat) : Int) * samplesDuration rate size + c * samplesDuration rate size := by
    rw [hc, Int.natCast_add, Int.add_mul]
  rw [hx, hc, Nat.add_sub_cancel_left]
  omega

theorem due_step (start : Int) (size rate k : Nat) :
    due start size rate (k + 1) ≤ due start size rate k + samplesDuration rate 1 + 1 := by
  have := (due_diff start size rate k 1).1
  omega

theorem stretch_length (start : Int) (size rate : Nat) (v : Nat → α) (a n : Nat) : (stretch start size rate v a n).length = n := by
  simp [stretch]

theorem stretch_split (start : Int) (size rate : Nat) (v : Nat → α) (a n k : Nat) (h : k ≤ n) :
    stretch start size rate v a n = stretch start size rate v a k ++ stretch start size rate v (a + k) (n - k) := by
  unfold stretch
  rw [← List.map_append]
  congr 1
  rw [List.range'_append_1, show k + (n - k) = n by omega]

theorem stretch_vals (start : Int) (size rate : Nat) (v : Nat → α) (a n : Nat) :
    (stretch start size rate v a n).map (·.val) = ((List.range' a n).map v).map some := by
  simp [stretch]

/-- One call in playing mode on a buffer that begins with samples that are no markers. -/
theorem direct_slots {rate len : Nat} {now : Int} {q : List (TS α)} {out : List (Option α)} {sy' : Bool} {rest : List (TS α)}
    (h : stream rate len now false q = some (out, sy', rest)) (p t : List (TS α)) (vs : List α) (hq : q = p ++ t)
    (hp : p.map (·.val) = vs.map some) :
    (∀ m, m < len → m < vs.length → out[m]? = (vs.map some)[m]?) ∧ (len ≤ vs.length → sy' = false ∧ rest = p.drop len ++ t) := by
  subst hq
  have hpl : p.length = vs.length := by simpa using congrArg List.length hp
  rcases Nat.lt_or_ge vs.length len with hlt | hge
  · refine ⟨?_, fun hx => by omega⟩
    intro m hm1 hm2
    have hr := stream_run h
    generalize hq : p ++ t = q at hr
    generalize hsy : false = sy at hr
    -- the values played come first, in both cases
    have key : ∀ (ws : List α) (p' r : List (TS α)), p' ++ r = p ++ t → p'.map (·.val) = ws.map some → m < ws.length →
        (ws.map some)[m]? = (vs.map some)[m]? := by
      intro ws p' r e1 e2 e3
      have hp' : p'.length = ws.length := by simpa using congrArg List.length e2
      rw [← e2, ← hp, List.getElem?_map, List.getElem?_map]
      congr 1
      rw [← List.getElem?_append_left (l₂ := r) (by omega), e1, List.getElem?_append_left (by omega)]
    cases hr with
    | done => omega
    | wait => simp at hsy
    | start => simp at hsy
    | @play _ _ _ ws r p' h0 h1 h2 h3 => exact key ws p' _ (by rw [hq, h1]) h2 (by omega)
    | @stop _ _ _ ws r p' x o _ _ h0 h1 h2 h3 h4 h5 =>
      have hp' : p'.length = ws.length := by simpa using congrArg List.length h2
      rcases Nat.lt_or_ge m ws.length with hw | hw
      · rw [List.getElem?_append_left (by simpa using hw)]
        exact key ws p' (x :: r) (by rw [hq, h1]) h2 hw
      · -- the marker would lie inside `p`
        exfalso
        have hx : (p ++ t)[p'.length]? = some x := by rw [hq, h1]; simp
        rw [List.getElem?_append_left (by omega)] at hx
        have : (p.map (·.val))[p'.length]? = some none := by rw [List.getElem?_map, hx]; simp [h4]
        rw [hp, List.getElem?_map] at this
        cases hv : vs[p'.length]? with
        | none => rw [hv] at this; simp at this
        | some y => rw [hv] at this; simp at this
  · have e : stream rate len now false (p.take len ++ (p.drop len ++ t)) =
        some ((vs.take len).map some, false, p.drop len ++ t) :=
      C14_direct_exact rate len now _ _ _ (by rw [List.map_take, hp, List.map_take]) (by simp; omega)
    rw [← List.append_assoc, List.take_append_drop, h] at e
    simp at e
    obtain ⟨rfl, rfl, rfl⟩ := e
    refine ⟨?_, fun _ => ⟨rfl, rfl⟩⟩
    intro m h1 h2
    rw [List.getElem?_take, if_pos h1]

theorem playLoop_length {rate len : Nat} {nows : List Int} {sy : Bool} {q : List (TS α)} {out : List (Option α)} {sy' : Bool}
    {rest : List (TS α)} (h : playLoop rate len nows sy q = some (out, sy', rest)) : out.length = len * nows.length :=
  (C14_in_order rate len nows sy q out sy' rest h).1

/-- Any number of calls in playing mode. -/
theorem direct_loop {rate len : Nat} : ∀ {nows : List Int} {q : List (TS α)} {out : List (Option α)} {sy' : Bool} {rest : List (TS α)}
    (h : playLoop rate len nows false q = some (out, sy', rest)) (p t : List (TS α)) (vs : List α) (hq : q = p ++ t)
    (hp : p.map (·.val) = vs.map some),
    ∀ m, m < len * nows.length → m < vs.length → out[m]? = (vs.map some)[m]? := by
  intro nows
  induction nows with
  | nil => intro q out sy' rest h p t vs hq hp m hm; simp at hm
  | cons now nows ih =>
    intro q out sy' rest h p t vs hq hp m hm hv
    simp only [playLoop] at h
    split at h
    · simp at h
    · rename_i o s1 q1 h1
      split at h
      · simp at h
      · rename_i o2 s2 q2 h2
        simp at h
        obtain ⟨rfl, rfl, rfl⟩ := h
        have hol : o.length = len := C14_length _ _ _ _ _ _ _ _ h1
        obtain ⟨d1, d2⟩ := direct_slots h1 p t vs hq hp
        rcases Nat.lt_or_ge m len with hl | hl
        · rw [List.getElem?_append_left (by omega)]
          exact d1 m hl hv
        · obtain ⟨rfl, rfl⟩ := d2 (by omega)
          rw [List.getElem?_append_right (by omega), hol]
          have := ih h2 (p.drop len) t (vs.drop len) rfl (by rw [List.map_drop, hp, List.map_drop]) (m - len)
            (by simp [Nat.mul_add] at hm; omega) (by simp; omega)
          rw [this, List.map_drop, List.getElem?_drop, show len + (m - len) = m by omega]

theorem playLoop_append {rate len : Nat} : ∀ {as bs : List Int} {sy : Bool} {q : List (TS α)} {out : List (Option α)} {sy' : Bool}
    {rest : List (TS α)}, playLoop rate len (as ++ bs) sy q = some (out, sy', rest) →
    ∃ o1 s1 q1 o2, playLoop rate len as sy q = some (o1, s1, q1) ∧ playLoop rate len bs s1 q1 = some (o2, sy', rest) ∧ out = o1 ++ o2 := by
  intro as
  induction as with
  | nil => intro bs sy q out sy' rest h; exact ⟨[], sy, q, out, rfl, h, rfl⟩
  | cons a as ih =>
    intro bs sy q out sy' rest h
    simp only [List.cons_append, playLoop] at h
    split at h
    · simp at h
    · rename_i o s1 q1 h1
      split at h
      · simp at h
      · rename_i o2 s2 q2 h2
        simp at h
        obtain ⟨rfl, rfl, rfl⟩ := h
        obtain ⟨p1, t1, r1, p2, e1, e2, e3⟩ := ih h2
        exact ⟨o ++ p1, t1, r1, p2, by simp [playLoop, h1, e1], e2, by rw [e3]; simp⟩

/-- Waiting calls: silence, and the buffer keeps the first sample. -/
theorem waiting {rate len : Nat} (hl : 0 < len) : ∀ {waits : List Int} {nans : List (TS α)} {f : TS α} {tl : List (TS α)}
    {out : List (Option α)} {sy' : Bool} {rest : List (TS α)} (hn : ∀ x ∈ nans, x.val = none) (hf : f.val.isSome)
    (hw : ∀ w ∈ waits, w < f.time + samplesDuration rate len)
    (h : playLoop rate len waits true (nans ++ f :: tl) = some (out, sy', rest)),
    sy' = true ∧ out = List.replicate (len * waits.length) none ∧ ∃ nans', (∀ x ∈ nans', x.val = none) ∧ rest = nans' ++ f :: tl := by
  intro waits
  induction waits with
  | nil =>
    intro nans f tl out sy' rest hn hf hw h
    simp [playLoop] at h
    obtain ⟨rfl, rfl, rfl⟩ := h
    exact ⟨rfl, by simp, nans, hn, rfl⟩
  | cons w waits ih =>
    intro nans f tl out sy' rest hn hf hw h
    have hs : streamSync rate len w (nans ++ f :: tl) = some (len, false, f :: tl) := by
      simp only [streamSync, skipNaN_append hn hf]
      rw [if_pos (hw w (by simp))]
    obtain ⟨e, -⟩ := C15_sync_is_silent rate len w _ _ _ hs hl
    simp only [playLoop, e] at h
    split at h
    · simp at h
    · rename_i o2 s2 q2 h2
      simp at h
      obtain ⟨rfl, rfl, rfl⟩ := h
      obtain ⟨r1, r2, r3⟩ := ih (nans := []) (by simp) hf (fun x hx => hw x (by simp [hx])) h2
      refine ⟨r1, ?_, r3⟩
      rw [r2, List.replicate_append_replicate]
      congr 1
      simp [Nat.mul_add]; omega

/-- The first sample of the stretch that is not overdue. -/
theorem first_due (start : Int) (size rate : Nat) (v : Nat → α) (now : Int) : ∀ (n a : Nat), 0 < n →
    now ≤ due start size rate (a + n - 1) →
    ∃ k, k < n ∧ now ≤ due start size rate (a + k) ∧ (∀ x ∈ stretch start size rate v a k, x.time < now) ∧
      (k = 0 ∨ due start size rate (a + k - 1) < now) := by
  intro n
  induction n with
  | zero => intro a h; omega
  | succ n ih =>
    intro a _ hlast
    rcases Int.lt_or_le (due start size rate a) now with hlt | hge
    · have hn : 0 < n := by
        rcases Nat.eq_zero_or_pos n with h | h
        · subst h; simp at hlast; omega
        · exact h
      obtain ⟨k, k1, k2, k3, k4⟩ := ih (a + 1) hn (by rw [show a + 1 + n - 1 = a + (n + 1) - 1 by omega]; exact hlast)
      refine ⟨k + 1, by omega, by rw [show a + (k + 1) = a + 1 + k by omega]; exact k2, ?_, ?_⟩
      · intro x hx
        rw [stretch_split _ _ _ _ _ _ 1 (by omega), List.mem_append] at hx
        rcases hx with hx | hx
        · simp [stretch] at hx; subst hx; exact hlt
        · exact k3 x (by simpa using hx)
      · right
        rcases k4 with rfl | k4
        · simpa using hlt
        · rw [show a + (k + 1) - 1 = a + 1 + k - 1 by omega]; exact k4
    · exact ⟨0, by omega, hge, by simp [stretch], .inl rfl⟩

/-- C71, one player. A player that is synchronising has a stretch of a song in its buffer, after any number of markers, and
other samples after it. It is called at times at which the first sample of the stretch is not yet a whole buffer overdue
(`waits`), then at a time `now` at which it is and the last one is not overdue, then at any times `nows`. Whatever these times
are, the player writes silence first; from the call at `now` on it writes the samples of the stretch one after the other,
beginning with some sample `k`. A sample is due at most one sample duration and one nanosecond after the time of the slot it is
written in, and before it by at most one nanosecond per chunk border since `k`. -/
theorem C71_on_schedule (rate len size : Nat) (hl : 0 < len) (start : Int) (v : Nat → α) (a n : Nat) (hn : 0 < n)
    (nans tail : List (TS α)) (hnan : ∀ x ∈ nans, x.val = none) (waits : List Int) (now : Int) (nows : List Int)
    (hw : ∀ w ∈ waits, w < due start size rate a + samplesDuration rate len)
    (h1 : due start size rate a + samplesDuration rate len ≤ now) (h2 : now ≤ due start size rate (a + n - 1))
    (out : List (Option α)) (sy' : Bool) (rest : List (TS α))
    (h : playLoop rate len (waits ++ now :: nows) true (nans ++ (stretch start size rate v a n ++ tail)) = some (out, sy', rest)) :
    (∀ j, j < len * waits.length → out[j]? = some none) ∧
    ∃ k, a ≤ k ∧ k < a + n ∧ now ≤ due start size rate k ∧ due start size rate k ≤ now + samplesDuration rate 1 ∧
      ∀ m, m < len * (nows.length + 1) → k + m < a + n →
        out[len * waits.length + m]? = some (some (v (k + m))) ∧
        due start size rate (k + m) - (now + samplesDuration rate m) ≤ samplesDuration rate 1 + 1 ∧
        -(((k + m) / size - k / size : Nat) : Int) ≤ due start size rate (k + m) - (now + samplesDuration rate m) := by
  obtain ⟨o1, s1, q1, o2, e1, e2, rfl⟩ := playLoop_append h
  have hcons : stretch start size rate v a n = ⟨some (v a), due start size rate a⟩ :: stretch start size rate v (a + 1) (n - 1) := by
    rw [stretch_split _ _ _ _ _ _ 1 (by omega)]; simp [stretch]
  have hq0 : nans ++ (stretch start size rate v a n ++ tail) =
      nans ++ ⟨some (v a), due start size rate a⟩ :: (stretch start size rate v (a + 1) (n - 1) ++ tail) := by rw [hcons]; rfl
  rw [hq0] at e1
  obtain ⟨rfl, ho1, nans', hn', rfl⟩ := waiting hl hnan (by rfl) hw e1
  have hlen1 : o1.length = len * waits.length := by rw [ho1]; simp
  refine ⟨?_, ?_⟩
  · intro j hj
    rw [List.getElem?_append_left (by omega), ho1, List.getElem?_replicate, if_pos hj]
  obtain ⟨k, k1, k2, k3, k4⟩ := first_due start size rate v now n a hn h2
  -- the leaving call
  have hsplit : (⟨some (v a), due start size rate a⟩ : TS α) :: (stretch start size rate v (a + 1) (n - 1) ++ tail) =
      stretch start size rate v a k ++ (stretch start size rate v (a + k) (n - k) ++ tail) := by
    have : (⟨some (v a), due start size rate a⟩ : TS α) :: (stretch start size rate v (a + 1) (n - 1) ++ tail) =
        stretch start size rate v a n ++ tail := by rw [hcons]; rfl
    rw [this, ← List.append_assoc, ← stretch_split _ _ _ _ _ _ k (by omega)]
  have hkcons : stretch start size rate v (a + k) (n - k) ++ tail =
      ⟨some (v (a + k)), due start size rate (a + k)⟩ :: (stretch start size rate v (a + k + 1) (n - k - 1) ++ tail) := by
    rw [stretch_split _ _ _ _ (a + k) (n - k) 1 (by omega)]; simp [stretch]
  have hsync : streamSync rate len now (nans' ++ ⟨some (v a), due start size rate a⟩ :: (stretch start size rate v (a + 1) (n - 1) ++ tail)) =
      some (0, true, stretch start size rate v (a + k) (n - k) ++ tail) := by
    simp only [streamSync, skipNaN_append hn' (s := ⟨some (v a), due start size rate a⟩) rfl]
    rw [if_neg (by omega), if_neg (by have := dur_nonneg rate len; omega), hsplit, hkcons, dropLate_append k3 k2]
  have hstream : stream rate len now true (nans' ++ ⟨some (v a), due start size rate a⟩ :: (stretch start size rate v (a + 1) (n - 1) ++ tail)) =
      stream rate len now false (stretch start size rate v (a + k) (n - k) ++ tail) := by
    rw [stream, if_neg (by omega), dif_pos rfl]
    split
    · rename_i hx; rw [hsync] at hx; simp at hx
    · rename_i hx
      rw [hsync] at hx
      simp only [Option.some.injEq, Prod.mk.injEq] at hx
      obtain ⟨rfl, rfl, rfl⟩ := hx
      rw [if_pos rfl, if_neg (by rw [hkcons]; simp), Nat.sub_zero, dur_zero, Int.add_zero]
      split
      · rename_i hy; rw [hy]
      · rename_i hy; rw [hy]; simp
  have hloop : playLoop rate len (now :: nows) false (stretch start size rate v (a + k) (n - k) ++ tail) = some (o2, sy', rest) := by
    rw [← e2]
    simp only [playLoop, hstream]
  have hk0 : due start size rate (a + k) ≤ now + samplesDuration rate 1 := by
    have hd := dur_nonneg rate 1
    rcases k4 with rfl | k4
    · have := dur_nonneg rate len
      simp only [Nat.add_zero] at k2 ⊢
      omega
    · rcases Nat.eq_zero_or_pos k with rfl | hkp
      · have := dur_nonneg rate len
        simp only [Nat.add_zero] at k2 ⊢
        omega
      · have := due_step start size rate (a + k - 1)
        rw [show a + k - 1 + 1 = a + k by omega] at this
        omega
  refine ⟨a + k, by omega, by omega, k2, hk0, ?_⟩
  intro m hm hkm
  have hd := due_diff start size rate (a + k) m
  refine ⟨?_, by omega, by omega⟩
  rw [List.getElem?_append_right (by omega), hlen1, Nat.add_sub_cancel_left]
  have := direct_loop hloop _ tail _ rfl (stretch_vals start size rate v (a + k) (n - k)) m (by simpa using hm) (by simp; omega)
  rw [this, List.getElem?_map, List.getElem?_map, List.getElem?_range' (by omega)]
  simp

/-- Specification: a player that came to play a song stretch as in `C71_on_schedule`. -/
structure Plays (rate len size : Nat) (start : Int) (v : Nat → α) (a n : Nat) (waits : List Int) (now : Int) (nows : List Int)
    (out : List (Option α)) : Prop where
  rest : ∃ (nans tail : List (TS α)) (sy' : Bool) (rest : List (TS α)), (∀ x ∈ nans, x.val = none) ∧
    playLoop rate len (waits ++ now :: nows) true (nans ++ (stretch start size rate v a n ++ tail)) = some (out, sy', rest)
  lenPos : 0 < len
  nPos : 0 < n
  wait : ∀ w ∈ waits, w < due start size rate a + samplesDuration rate len
  begin : due start size rate a + samplesDuration rate len ≤ now
  last : now ≤ due start size rate (a + n - 1)

/-- C71. Two players with the same stretch of a song (each with its own buffer size and clock; a player that joined late may
have only a later part of it) start to play when their synced clocks show `nowA` and `nowB`, which are at most `eA` and `eB`
wrong: the server's clock shows `trueA` and `trueB`. Then there is, for each of them, a slot from which on they play consecutive
samples, and every sample `i` both play is played at server times that differ by at most `eA + eB`, one sample, and one
nanosecond for each chunk border between the start of their playing and `i`, plus one. -/
theorem C71_players_in_sync (rate lenA lenB size : Nat) (start : Int) (v : Nat → α) (a nA b nB : Nat) (waitsA waitsB : List Int)
    (nowA nowB : Int) (nowsA nowsB : List Int) (outA outB : List (Option α))
    (hA : Plays rate lenA size start v a nA waitsA nowA nowsA outA) (hB : Plays rate lenB size start v b nB waitsB nowB nowsB outB)
    (trueA trueB eA eB : Int) (hcA : -eA ≤ nowA - trueA ∧ nowA - trueA ≤ eA) (hcB : -eB ≤ nowB - trueB ∧ nowB - trueB ≤ eB) :
    ∃ kA kB, a ≤ kA ∧ b ≤ kB ∧ ∀ i, kA ≤ i → kB ≤ i → i < a + nA → i < b + nB →
      i - kA < lenA * (nowsA.length + 1) → i - kB < lenB * (nowsB.length + 1) →
      outA[lenA * waitsA.length + (i - kA)]? = some (some (v i)) ∧ outB[lenB * waitsB.length + (i - kB)]? = some (some (v i)) ∧
      ((trueA + samplesDuration rate (i - kA)) - (trueB + samplesDuration rate (i - kB))).natAbs ≤
        eA + eB + samplesDuration rate 1 + 1 + ((i / size - min kA kB / size : Nat) : Int) := by
  obtain ⟨nansA, tailA, syA, restA, nA1, nA2⟩ := hA.rest
  obtain ⟨nansB, tailB, syB, restB, nB1, nB2⟩ := hB.rest
  obtain ⟨-, kA, a1, a2, a3, a4, a5⟩ := C71_on_schedule rate lenA size hA.lenPos start v a nA hA.nPos nansA tailA nA1 waitsA nowA nowsA hA.wait
    hA.begin hA.last outA syA restA nA2
  obtain ⟨-, kB, b1, b2, b3, b4, b5⟩ := C71_on_schedule rate lenB size hB.lenPos start v b nB hB.nPos nansB tailB nB1 waitsB nowB nowsB hB.wait
    hB.begin hB.last outB syB restB nB2
  refine ⟨kA, kB, a1, b1, ?_⟩
  intro i hiA hiB hA2 hB2 hmA hmB
  obtain ⟨p1, p2, p3⟩ := a5 (i - kA) hmA (by omega)
  obtain ⟨q1, q2, q3⟩ := b5 (i - kB) hmB (by omega)
  rw [show kA + (i - kA) = i by omega] at p1 p2 p3
  rw [show kB + (i - kB) = i by omega] at q1 q2 q3
  refine ⟨p1, q1, ?_⟩
  have c1 : i / size - kA / size ≤ i / size - min kA kB / size := by
    have : min kA kB / size ≤ kA / size := Nat.div_le_div_right (Nat.min_le_left _ _)
    omega
  have c2 : i / size - kB / size ≤ i / size - min kA kB / size := by
    have : min kA kB / size ≤ kB / size := Nat.div_le_div_right (Nat.min_le_right _ _)
    omega
  omega

/-- C71 with C21: the clocks are synchronised as in `C21_synced_clock_error`, with exchanges the round trips of which take at most
`BA` and `BB` nanoseconds, and were not changed since. The players' clocks show `nowA` and `nowB` when the server's shows
`rawA + DA` and `rawB + DB`. Then both play every sample at the same time, up to half the two round trip times, one sample, three
nanoseconds, and one nanosecond per chunk border. -/
theorem C71_synchronised_players (rate lenA lenB size : Nat) (start : Int) (v : Nat → α) (a nA b nB : Nat) (waitsA waitsB : List Int)
    (nowsA nowsB : List Int) (outA outB : List (Option α)) (rawA rawB : Int) (tA tB : MS.Timing.St)
    (hA : Plays rate lenA size start v a nA waitsA (MS.Timing.syncedTime tA rawA) nowsA outA)
    (hB : Plays rate lenB size start v b nB waitsB (MS.Timing.syncedTime tB rawB) nowsB outB)
    (grow : Nat → Nat) (DA DB BA BB : Int) (esA esB : List MS.Timing.Exchange) (hneA : esA ≠ []) (hneB : esB ≠ [])
    (hbA : ∀ e ∈ esA, 0 ≤ e.d1 ∧ 0 ≤ e.d2 ∧ e.d1 + e.d2 ≤ BA) (hbB : ∀ e ∈ esB, 0 ≤ e.d1 ∧ 0 ≤ e.d2 ∧ e.d1 + e.d2 ≤ BB)
    (sA sB : MS.Timing.St) (hqA : sA.nTest = 0 ∧ sA.nAvg = 0) (hqB : sB.nTest = 0 ∧ sB.nAvg = 0)
    (actsA actsB : List MS.Timing.Act) (hrA : MS.Timing.noReset actsA = true) (hrB : MS.Timing.noReset actsB = true)
    (heA : MS.Timing.appended actsA = esA.map (MS.Timing.estimate DA))
    (heB : MS.Timing.appended actsB = esB.map (MS.Timing.estimate DB))
    (htA : MS.Timing.run grow sA (.reset esA.length :: actsA) = some tA) (hdA : tA.nTest = 0 ∧ tA.nAvg = 0)
    (htB : MS.Timing.run grow sB (.reset esB.length :: actsB) = some tB) (hdB : tB.nTest = 0 ∧ tB.nAvg = 0) :
    ∃ kA kB, a ≤ kA ∧ b ≤ kB ∧ ∀ i, kA ≤ i → kB ≤ i → i < a + nA → i < b + nB →
      i - kA < lenA * (nowsA.length + 1) → i - kB < lenB * (nowsB.length + 1) →
      outA[lenA * waitsA.length + (i - kA)]? = some (some (v i)) ∧ outB[lenB * waitsB.length + (i - kB)]? = some (some (v i)) ∧
      2 * ((rawA + DA + samplesDuration rate (i - kA)) - (rawB + DB + samplesDuration rate (i - kB))).natAbs ≤
        BA + BB + 2 * samplesDuration rate 1 + 6 + 2 * ((i / size - min kA kB / size : Nat) : Int) := by
  have cA := MS.Timing.C21_synced_clock_error grow sA hqA DA BA esA hneA hbA actsA hrA heA tA htA hdA rawA
  have cB := MS.Timing.C21_synced_clock_error grow sB hqB DB BB esB hneB hbB actsB hrB heB tB htB hdB rawB
  -- the errors as they are
  obtain ⟨kA, kB, h1, h2, h3⟩ := C71_players_in_sync rate lenA lenB size start v a nA b nB waitsA waitsB _ _ nowsA nowsB outA outB hA hB
    (rawA + DA) (rawB + DB) ((MS.Timing.syncedTime tA rawA - (rawA + DA)).natAbs) ((MS.Timing.syncedTime tB rawB - (rawB + DB)).natAbs)
    (by omega) (by omega)
  refine ⟨kA, kB, h1, h2, ?_⟩
  intro i i1 i2 i3 i4 i5 i6
  obtain ⟨p1, p2, p3⟩ := h3 i i1 i2 i3 i4 i5 i6
  refine ⟨p1, p2, ?_⟩
  omega

/-- Non-vacuity: 1000 samples a second, chunks of 4, the stretch of samples 1 to 20 after a marker; buffers of 2 samples. The player
waits at 2 ms, starts at 5 ms with sample 5 and goes on. -/
example : ∃ out, Plays (α := Nat) 1000 2 4 0 id 1 20 [2000000] 5000000 [7000000] out ∧
    out = [none, none, some 5, some 6, some 7, some 8] :=
  ⟨_, ⟨⟨[⟨none, 0⟩], [], false, (stretch 0 4 1000 id 9 12), by simp, by
    simp [playLoop, stream, streamSync, skipNaN, samplesDuration, dropLate, streamDirect, List.replicate, stretch, List.range', due,
      chunkTime]⟩, by decide, by decide, by decide, by decide, by decide⟩, rfl⟩

end MS.InSync
