import Verif.Model.StreamMusic
import Verif.Props.Fill
import Verif.Props.ReadChunks
/-!
# Property C13: chunk time stamps
-/
namespace MS.StreamMusic
open MS.Fill (Windows)

variable {α : Type}

theorem messagesFrom_length (start time : Int) (size : Nat) (i : Int) (fs : List (Nat × List α × List α)) :
    (messagesFrom start time size i fs).length = fs.length := by
  induction fs generalizing i with
  | nil => rfl
  | cons f fs ih => obtain ⟨a, b, c⟩ := f; simp [messagesFrom, ih]

theorem messagesFrom_get (start time : Int) (size : Nat) (i : Int) (fs : List (Nat × List α × List α)) (n : Nat)
    (h : n < fs.length) :
    (messagesFrom start time size i fs)[n]? = some
      (⟨start + (i + n) * time, i + n, fs[n].2.1, fs[n].2.2, fs[n].1⟩, ⟨start + (i + n) * time, fs[n].1, size⟩) := by
  induction fs generalizing i n with
  | nil => simp at h
  | cons f fs ih =>
    obtain ⟨a, b, c⟩ := f
    cases n with
    | zero => simp [messagesFrom]
    | succ n =>
      simp only [messagesFrom, List.getElem?_cons_succ]
      rw [ih (i + 1) n (by simpa using h)]
      simp only [List.getElem_cons_succ]
      rw [show i + 1 + (n : Int) = i + ((n + 1 : Nat) : Int) by omega]

theorem windows_index {samples : List (α × α)} {size : Nat} : ∀ (start : Nat) (cs : List (Nat × List α × List α)),
    Windows samples start cs → (∀ c ∈ cs, c.2.1.length = size) →
    ∀ (n : Nat) (h : n < cs.length), cs[n].1 = start + n * size ∧ cs[n].2.2.length = size ∧
      cs[n].2.1 = ((samples.drop (start + n * size)).take size).map Prod.fst ∧
      cs[n].2.2 = ((samples.drop (start + n * size)).take size).map Prod.snd := by
  intro start cs
  induction cs generalizing start with
  | nil => intro _ _ n h; simp at h
  | cons c cs ih =>
    intro hw hs n h
    obtain ⟨k, low, high⟩ := c
    obtain ⟨h1, h2, h3, h4, h5⟩ := hw
    have hl : low.length = size := hs (k, low, high) (by simp)
    cases n with
    | zero =>
      simp only [List.getElem_cons_zero, Nat.zero_mul, Nat.add_zero]
      rw [hl] at h3 h4 h2
      exact ⟨h1, h2.symm, h3, h4⟩
    | succ n =>
      simp only [List.getElem_cons_succ]
      have := ih (start + low.length) h5 (fun c hc => hs c (by simp [hc])) n (by simpa using h)
      rw [hl, show start + size + n * size = start + (n + 1) * size by rw [Nat.add_mul]; omega] at this
      exact this

/-- C13. For every schedule of pushes and reads in which each chunk is filled with `size` samples, the n-th audio chunk
and the n-th chunk info carry the same start time `start + n * chunkTime` and the same first sample index `n * size`;
the chunk id is n, the chunk info announces `size`, and the audio is exactly samples [n*size, (n+1)*size) of the
stream. -/
theorem C13_stamps (now delay : Int) (size rate cap : Nat) (acts : List (MS.Fill.Act α)) (s : MS.Fill.St α)
    (h : MS.Fill.run (MS.Fill.init cap) acts = some s) (hs : ∀ c ∈ s.chunks, c.2.1.length = size) (n : Nat)
    (hn : n < s.chunks.length) :
    ∃ q i, (messages now delay size rate s.chunks)[n]? = some (q, i) ∧
      q.startTime = now + delay + n * chunkTime size rate ∧ i.startTime = q.startTime ∧
      q.firstSampleIndex = n * size ∧ i.firstSampleIndex = n * size ∧ q.chunkId = n ∧ i.chunkSize = size ∧
      q.low = (((MS.Fill.pushes acts).drop (n * size)).take size).map Prod.fst ∧
      q.high = (((MS.Fill.pushes acts).drop (n * size)).take size).map Prod.snd := by
  have hw := MS.Fill.C11_chunks_are_windows cap acts s h
  obtain ⟨w1, w2, w3, w4⟩ := windows_index 0 s.chunks hw hs n hn
  rw [Nat.zero_add] at w1 w3 w4
  have hg := messagesFrom_get (now + delay) (chunkTime size rate) size 0 s.chunks n hn
  rw [Int.zero_add] at hg
  exact ⟨_, _, hg, rfl, rfl, w1, w1, rfl, rfl, w3, w4⟩

/-- C13. The schedule against the exact sample clock: sample `n*size` is exactly due `n*size*10^9/rate` ns after the
start; the announced start time of chunk n is never later and less than n ns earlier (n > 0). -/
theorem C13_drift (size rate n : Nat) (hr : 0 < rate) :
    (n * chunkTime size rate) * rate ≤ (n * size : Int) * 1000000000 ∧
    (0 < n → (n * size : Int) * 1000000000 < (n * chunkTime size rate + n) * rate) := by
  simp only [chunkTime]
  have h0 : (0 : Int) ≤ (size : Int) * 1000000000 := by omega
  rw [Int.tdiv_eq_ediv_of_nonneg h0]
  have h1 := Int.mul_ediv_add_emod ((size : Int) * 1000000000) rate
  have h2 := Int.emod_nonneg ((size : Int) * 1000000000) (show (rate : Int) ≠ 0 by omega)
  have h3 := Int.emod_lt_of_pos ((size : Int) * 1000000000) (show (0 : Int) < rate by omega)
  generalize ((size : Int) * 1000000000) / rate = q at *
  generalize ((size : Int) * 1000000000) % rate = r at *
  rw [Int.mul_assoc (n : Int) size, ← h1]
  have e1 : (n * q : Int) * rate = n * (rate * q) := by rw [Int.mul_assoc, Int.mul_comm q]
  have e2 : (n : Int) * (rate * q + r) = n * (rate * q) + n * r := Int.mul_add _ _ _
  have e3 : ((n : Int) * q + n) * rate = n * (rate * q) + n * rate := by rw [Int.add_mul, e1]
  rw [e1, e2, e3]
  constructor
  · have := Int.mul_nonneg (show (0 : Int) ≤ n by omega) h2
    omega
  · intro hn
    have := Int.mul_lt_mul_of_pos_left h3 (show (0 : Int) < n by omega)
    omega

/-- C13. Consecutive start times differ by the chunk time, and the time stamps meet the hypothesis of
`C19_in_order_arrival_partial`: a chunk starts no earlier than the previous one ends. -/
theorem C13_chunks_abut (size rate : Nat) (start : Int) (n : Nat) :
    start + n * chunkTime size rate + MS.Streamer.samplesDuration rate size ≤ start + ((n + 1 : Nat) : Int) * chunkTime size rate ∧
    (start + ((n + 1 : Nat) : Int) * chunkTime size rate) - (start + n * chunkTime size rate) = chunkTime size rate := by
  have : MS.Streamer.samplesDuration rate size = chunkTime size rate := by
    simp [MS.Streamer.samplesDuration, chunkTime, Int.mul_comm]
  rw [this]
  have e : ((n + 1 : Nat) : Int) * chunkTime size rate = n * chunkTime size rate + chunkTime size rate := by
    rw [Int.natCast_add, Int.add_mul]; simp
  omega

/-- C13 with C20: if the player receives the first chunks in order, then the due time of every buffered sample is the
server's schedule: sample j of the stream (chunk j/size, position j mod size) is due at
start + (j/size) * chunkTime + floor((j mod size) * 1s / rate). -/
theorem C13_due_times (rate size : Nat) (hs : 0 < size) (start : Int) (stream : List (Option α)) (m : Nat)
    (hm : m * size ≤ stream.length) (j : Nat) (hj : j < m * size) :
    (((List.range m).map (fun (n : Nat) => (⟨start + (n : Int) * chunkTime size rate, (stream.drop (n * size)).take size⟩ :
        MS.ReadChunks.Chunk α))).flatMap (MS.ReadChunks.stamped rate))[j]? =
      some ⟨stream[j]'(by omega), start + ((j / size : Nat) : Int) * chunkTime size rate +
        MS.Streamer.samplesDuration rate (j % size)⟩ := by
  induction m with
  | zero => simp at hj
  | succ m ih =>
    have hm' : m * size ≤ stream.length := by rw [Nat.add_mul] at hm; omega
    have hlen : ∀ k, k ≤ m → (((List.range k).map (fun (n : Nat) => (⟨start + (n : Int) * chunkTime size rate,
        (stream.drop (n * size)).take size⟩ : MS.ReadChunks.Chunk α))).flatMap (MS.ReadChunks.stamped rate)).length =
        k * size := by
      intro k
      induction k with
      | zero => intro _; simp
      | succ k ihk =>
        intro hk
        rw [List.range_succ, List.map_append, List.flatMap_append, List.length_append, ihk (by omega)]
        have : (k + 1) * size ≤ m * size := Nat.mul_le_mul_right _ hk
        rw [Nat.add_mul] at this ⊢
        simp [MS.ReadChunks.stamped]
        omega
    rw [List.range_succ, List.map_append, List.flatMap_append]
    rcases Nat.lt_or_ge j (m * size) with h | h
    · rw [List.getElem?_append_left (by rw [hlen m (Nat.le_refl _)]; exact h)]
      exact ih hm' h
    · rw [List.getElem?_append_right (by rw [hlen m (Nat.le_refl _)]; exact h), hlen m (Nat.le_refl _)]
      rw [Nat.add_mul, Nat.one_mul] at hj hm
      have hd : j / size = m := by
        apply Nat.div_eq_of_lt_le
        · exact h
        · rw [Nat.add_mul]; omega
      have hmod : j % size = j - m * size := by
        have := Nat.div_add_mod j size
        rw [hd, Nat.mul_comm] at this
        omega
      rw [hd, hmod]
      have hlt : j - m * size < ((stream.drop (m * size)).take size).length := by simp; omega
      simp only [List.map_cons, List.map_nil, List.flatMap_cons, List.flatMap_nil, List.append_nil]
      rw [List.getElem?_eq_getElem (by rw [MS.ReadChunks.stamped_length]; exact hlt)]
      simp only [MS.ReadChunks.stamped, List.getElem_zipWith, List.getElem_range, List.getElem_take,
        List.getElem_drop, MS.ReadChunks.dur_spec]
      congr 2
      congr 1
      omega

/-- Non-vacuity: chunk time of 7 samples at 3 Hz is truncated. -/
example : chunkTime 7 3 = 2333333333 := by decide

example : messages (α := Nat) 5 10 2 1 [(0, [1, 2], [3, 4]), (2, [5, 6], [7, 8])] =
    [(⟨15, 0, [1, 2], [3, 4], 0⟩, ⟨15, 0, 2⟩), (⟨2000000015, 1, [5, 6], [7, 8], 2⟩, ⟨2000000015, 2, 2⟩)] := by decide

end MS.StreamMusic
