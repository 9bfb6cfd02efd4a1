import Verif.Model.InfoRate
import Verif.Props.Infoer
/-!
# C134: an infoer with another sample rate than the server's
-/
namespace MS.InfoRate
open MS.Infoer

/-- C134, rate 0: the infoer crashes at the first redraw after a chunk has been announced; until then, and at every other rate, it does
not crash. -/
theorem C134_crash {σ : Type} (rate : Nat) (now : Int) (s : State σ) :
    (info? rate now s = none ↔ rate = 0 ∧ s.chunks ≠ []) ∧ (0 < rate → info? rate now s = some (info rate now s)) := by
  have hrem : 0 < rate → ∀ cs, removeOldChunks? rate now cs = some (removeOldChunks rate now cs) := by
    intro hr cs
    induction cs with
    | nil => rfl
    | cons c cs ih =>
      have : endTime? rate c = some (c.endTime rate) := by
        simp [endTime?, goDiv, Nat.ne_of_gt hr, Chunk.endTime, Chunk.len]
      simp only [removeOldChunks?, this, removeOldChunks]
      split
      · rfl
      · exact ih
  have hpos : 0 < rate → info? rate now s = some (info rate now s) := by
    intro hr
    simp only [info?, hrem hr, info, goDiv, if_neg (Nat.ne_of_gt hr)]
    split <;> rfl
  refine ⟨?_, hpos⟩
  rcases Nat.eq_zero_or_pos rate with hz | hr
  · subst hz
    cases hc : s.chunks with
    | nil =>
      have : info? 0 now s ≠ none := by
        have hn : ¬ (songStart (currentSong (sampleAt 0 now []) s.songs) ≠ 0 ∧
            (songStart (currentSong (sampleAt 0 now []) s.songs) : Int) < sampleAt 0 now []) := by
          have : sampleAt 0 now [] = 0 := rfl
          rw [this]; omega
        simp only [info?, hc, removeOldChunks?]
        rw [if_neg hn]
        simp
      simpa using this
    | cons c cs =>
      simp [info?, hc, removeOldChunks?, endTime?, goDiv]
  · rw [hpos hr]
    simp
    omega

/-- Specification: a chunk as the server schedules it: chunk `n` of `size` samples, the chunks `time` nanoseconds apart. -/
theorem find_chunk {rate size : Nat} (hsz : 0 < size) {start time : Int} (ht : 0 ≤ time) (cs : List Chunk)
    (hsched : ∀ c ∈ cs, ∃ n, c = scheduled start time size n) (hsort : cs.Pairwise (fun a b => a.startIndex ≤ b.startIndex))
    (n : Nat) (hn : scheduled start time size n ∈ cs) (now : Int)
    (h1 : start + ((n : Int) - 1) * time + chunkTime rate size < now) (h2 : now ≤ start + n * time + chunkTime rate size) :
    cs.find? (fun c => decide (now ≤ c.endTime rate)) = some (scheduled start time size n) := by
  have hend : ∀ k : Nat, (scheduled start time size k).endTime rate = start + k * time + chunkTime rate size := fun k => rfl
  generalize chunkTime rate size = T at *
  induction cs with
  | nil => simp at hn
  | cons c cs ih =>
    obtain ⟨k, rfl⟩ := hsched c (by simp)
    rw [List.find?_cons]
    rw [List.pairwise_cons] at hsort
    have hk' : k ≤ n := by
      rcases List.mem_cons.1 hn with h | h
      · have := congrArg Chunk.startIndex h
        simp only [scheduled] at this
        exact Nat.le_of_mul_le_mul_right (Nat.le_of_eq this.symm) hsz
      · have := hsort.1 _ h
        simp only [scheduled] at this
        exact Nat.le_of_mul_le_mul_right this hsz
    rcases Nat.lt_or_ge k n with hlt | hge
    · have : ¬ now ≤ (scheduled start time size k).endTime rate := by
        rw [hend]
        have : (k : Int) * time ≤ ((n : Int) - 1) * time := Int.mul_le_mul_of_nonneg_right (by omega) ht
        omega
      simp only [this, decide_false]
      refine ih (fun c hc => hsched c (by simp [hc])) hsort.2 ?_
      rcases List.mem_cons.1 hn with h | h
      · exfalso
        have := congrArg Chunk.startIndex h
        simp only [scheduled] at this
        have := Nat.eq_of_mul_eq_mul_right hsz this
        omega
      · exact h
    · have : k = n := by omega
      subst this
      have : now ≤ (scheduled start time size k).endTime rate := by rw [hend]; exact h2
      simp [this]

/-- C134, position: the server's rate is `rate`, the infoer's `own`. Whatever chunks have arrived, in whatever order: while `now` is in
the period `own` gives chunk `m` (it ends when the chunk ends at the infoer's rate, and begins when the one before does), and `m` is among
them, the sample shown is its first index plus the time since its start at the infoer's rate, rounded towards zero. -/
theorem C134_position {σ : Type} (rate own size : Nat) (hr : 0 < rate) (hsz : 0 < size) (start : Int) (s0 s : State σ)
    (h0 : s0.chunks = []) (arrived : List Chunk) (ha : ChunksArrive s0 arrived s)
    (hsched : ∀ c ∈ arrived, ∃ n, c = scheduled start (chunkTime rate size) size n)
    (m : Nat) (hm : scheduled start (chunkTime rate size) size m ∈ arrived) (now : Int)
    (h1 : start + ((m : Int) - 1) * chunkTime rate size + chunkTime own size < now)
    (h2 : now ≤ start + m * chunkTime rate size + chunkTime own size) :
    (info own now s).1.sample = m * size + ((now - (start + m * chunkTime rate size)) * own).tdiv second := by
  obtain ⟨hp, hs⟩ := chunksArrive_spec ha (by rw [h0]; exact List.Pairwise.nil)
  rw [h0, List.nil_append] at hp
  have hsample : (info own now s).1.sample = sampleAt own now (removeOldChunks own now s.chunks) := by
    simp only [info]; split <;> rfl
  rw [hsample, sampleAt_find, find_chunk hsz (chunkTime_bounds rate size hr).2.2 s.chunks
    (fun c hc => hsched c (hp.subset hc)) hs m (hp.symm.subset hm) now h1 h2]
  simp only [scheduled]
  push_cast
  rfl

/-- C134, an infoer set to a lower rate lags behind: at `now` chunk `n` is played, and the infoer, in its period for chunk `m`, never
shows a position beyond the one a rightly set infoer shows (C41), and one at most as many chunks, and one, before it as whole chunk times are
begun in the chunk's length at the infoer's rate; the lag does not grow with time. -/
theorem C134_lag {σ : Type} (rate own size : Nat) (ho : 0 < own) (hle : own ≤ rate) (hsz : 0 < size) (start : Int) (s0 s : State σ)
    (h0 : s0.chunks = []) (arrived : List Chunk) (ha : ChunksArrive s0 arrived s)
    (hsched : ∀ c ∈ arrived, ∃ n, c = scheduled start (chunkTime rate size) size n)
    (m : Nat) (hm : scheduled start (chunkTime rate size) size m ∈ arrived) (now : Int)
    (h1 : start + ((m : Int) - 1) * chunkTime rate size + chunkTime own size < now)
    (h2 : now ≤ start + m * chunkTime rate size + chunkTime own size)
    (n : Nat) (h3 : start + n * chunkTime rate size < now) (h4 : now ≤ start + (n + 1) * chunkTime rate size) :
    m ≤ n ∧ ((n - m : Nat) : Int) * chunkTime rate size < chunkTime own size ∧
    (info own now s).1.sample ≤ n * size + ((now - (start + n * chunkTime rate size)) * rate) / second ∧
    n * size + ((now - (start + n * chunkTime rate size)) * rate) / second ≤ (info own now s).1.sample + ((n - m : Nat) + 1) * size := by
  have hr : 0 < rate := by omega
  rw [C134_position rate own size hr hsz start s0 s h0 arrived ha hsched m hm now h1 h2]
  obtain ⟨b1, b2, b3⟩ := chunkTime_bounds rate size hr
  obtain ⟨d1, d2, d3⟩ := chunkTime_bounds own size ho
  have hT : chunkTime rate size ≤ chunkTime own size := by
    have h0 : (0 : Int) ≤ size * second := Int.mul_nonneg (by omega) (by decide)
    refine Classical.byContradiction fun hx => ?_
    have : (chunkTime own size + 1) * own ≤ chunkTime rate size * own := Int.mul_le_mul_of_nonneg_right (by omega) (by omega)
    have h5 : chunkTime rate size * own ≤ chunkTime rate size * rate := Int.mul_le_mul_of_nonneg_left (by omega) b3
    omega
  have hs : second = 1000000000 := rfl
  generalize chunkTime rate size = P at *
  generalize chunkTime own size = T at *
  have e1 : ((n : Int) + 1) * P = n * P + P := by rw [Int.add_mul]; simp
  have e2 : ((m : Int) - 1) * P = m * P - P := by rw [Int.sub_mul]; simp
  have hmn : m ≤ n := by
    refine Classical.byContradiction fun hx => ?_
    have : ((n : Int) + 1) * P ≤ m * P := Int.mul_le_mul_of_nonneg_right (by omega) b3
    omega
  obtain ⟨k, rfl⟩ : ∃ k, n = m + k := ⟨n - m, by omega⟩
  rw [Nat.add_sub_cancel_left]
  have e3 : ((m + k : Nat) : Int) * P = m * P + k * P := by rw [Int.natCast_add, Int.add_mul]
  have e4 : ((m + k : Nat) : Int) * size = m * size + k * size := by rw [Int.natCast_add, Int.add_mul]
  have e5 : ((k : Int) + 1) * size = k * size + size := by rw [Int.add_mul]; simp
  have hk : (k : Int) * P < T := by omega
  have hx0 : 0 ≤ (now - (start + m * P)) * own := Int.mul_nonneg (by omega) (by omega)
  have hy0 : 0 ≤ (now - (start + ((m + k : Nat) : Int) * P)) * rate := Int.mul_nonneg (by omega) (by omega)
  rw [Int.tdiv_eq_ediv_of_nonneg hx0]
  have hy1 : (now - (start + ((m + k : Nat) : Int) * P)) * rate ≤ P * rate := Int.mul_le_mul_of_nonneg_right (by omega) (by omega)
  have hxy : (now - (start + m * P)) * own ≤ k * size * second + (now - (start + ((m + k : Nat) : Int) * P)) * rate := by
    have g1 : (now - (start + m * P)) * own ≤ (now - (start + m * P)) * rate := Int.mul_le_mul_of_nonneg_left (by omega) (by omega)
    have g2 : (now - (start + m * P)) * (rate : Int) = k * P * rate + (now - (start + ((m + k : Nat) : Int) * P)) * rate := by
      rw [← Int.add_mul]; congr 1; omega
    have g3 : (k : Int) * (P * rate) ≤ k * (size * second) := Int.mul_le_mul_of_nonneg_left b1 (by omega)
    rw [← Int.mul_assoc, ← Int.mul_assoc] at g3
    omega
  refine ⟨by omega, hk, ?_, ?_⟩
  · rw [e4]
    generalize (now - (start + m * P)) * (own : Int) = x at *
    generalize (now - (start + ((m + k : Nat) : Int) * P)) * (rate : Int) = y at *
    rw [hs] at *
    omega
  · rw [e4, e5]
    generalize (now - (start + m * P)) * (own : Int) = x at *
    generalize (now - (start + ((m + k : Nat) : Int) * P)) * (rate : Int) = y at *
    rw [hs] at *
    omega

theorem removeOld_twice (rate : Nat) {now now' : Int} (h : now ≤ now') (cs : List Chunk) :
    removeOldChunks rate now' (removeOldChunks rate now cs) = removeOldChunks rate now' cs := by
  induction cs with
  | nil => rfl
  | cons c cs ih =>
    by_cases hc : now ≤ c.endTime rate
    · rw [removeOldChunks, if_pos hc]
    · rw [removeOldChunks, if_neg hc, ih, removeOldChunks, if_neg (by omega)]

/-- C134, an infoer set to a higher rate goes back at every chunk border: redrawing at the end of its period for chunk `m`, and again a
nanosecond later, the second position is before the first by what it was ahead; in particular it is a smaller one as soon as the chunk time and
the chunk's length at the infoer's rate differ by the time of two samples. -/
theorem C134_back {σ : Type} (rate own size : Nat) (hr : 0 < rate) (hlt : rate ≤ own) (ho : own ≤ 1000000000) (hsz : 0 < size) (start : Int)
    (s0 s : State σ) (h0 : s0.chunks = []) (arrived : List Chunk) (ha : ChunksArrive s0 arrived s)
    (hsched : ∀ c ∈ arrived, ∃ n, c = scheduled start (chunkTime rate size) size n)
    (m : Nat) (hm : scheduled start (chunkTime rate size) size m ∈ arrived) (hm' : scheduled start (chunkTime rate size) size (m + 1) ∈ arrived)
    (now : Int) (hnow : now = start + m * chunkTime rate size + chunkTime own size)
    (hdiff : 2 * second ≤ (chunkTime rate size - chunkTime own size - 1) * own) :
    (info own (now + 1) (info own now s).2).1.sample < (info own now s).1.sample ∧
    (info own (now + 1) (info own now s).2).1.sample ≤
      (info own now s).1.sample + 1 - ((chunkTime rate size - chunkTime own size - 1) * own) / second := by
  obtain ⟨b1, b2, b3⟩ := chunkTime_bounds rate size hr
  obtain ⟨d1, d2, d3⟩ := chunkTime_bounds own size (by omega)
  have hs : second = 1000000000 := rfl
  have hpos : chunkTime own size < chunkTime rate size := by
    refine Classical.byContradiction fun hx => ?_
    have : (chunkTime rate size - chunkTime own size - 1) * own ≤ 0 := Int.mul_nonpos_of_nonpos_of_nonneg (by omega) (by omega)
    omega
  have e2 : ((m : Int) - 1) * chunkTime rate size = m * chunkTime rate size - chunkTime rate size := by rw [Int.sub_mul]; simp
  have e3 : ((m + 1 : Nat) : Int) * chunkTime rate size = m * chunkTime rate size + chunkTime rate size := by
    rw [Int.natCast_add, Int.add_mul]; simp
  have p1 := C134_position rate own size hr hsz start s0 s h0 arrived ha hsched m hm now (by omega) (by omega)
  have p2 := C134_position rate own size hr hsz start s0 s h0 arrived ha hsched (m + 1) hm' (now + 1)
    (by have : (((m + 1 : Nat) : Int) - 1) = m := by omega
        rw [this]; omega) (by omega)
  have hq : (info own (now + 1) (info own now s).2).1.sample = (info own (now + 1) s).1.sample := by
    have hx : ∀ s : State σ, ∀ t, (info own t s).1.sample = sampleAt own t (removeOldChunks own t s.chunks) := by
      intro s t; simp only [info]; split <;> rfl
    have hy : (info own now s).2.chunks = removeOldChunks own now s.chunks := rfl
    rw [hx, hx, hy, removeOld_twice own (by omega)]
  rw [hq, p1, p2]
  have e4 : now + 1 - (start + ((m + 1 : Nat) : Int) * chunkTime rate size) = -(chunkTime rate size - chunkTime own size - 1) := by omega
  have e5 : now - (start + m * chunkTime rate size) = chunkTime own size := by omega
  have e6 : ((m + 1 : Nat) : Int) * size = m * size + size := by rw [Int.natCast_add, Int.add_mul]; simp
  rw [e4, e5, e6, Int.neg_mul, Int.neg_tdiv]
  rw [Int.tdiv_eq_ediv_of_nonneg (Int.mul_nonneg d3 (by omega)), Int.tdiv_eq_ediv_of_nonneg (by omega)]
  have e7 : (chunkTime own size + 1) * own = chunkTime own size * own + own := by rw [Int.add_mul]; simp
  generalize (chunkTime rate size - chunkTime own size - 1) * (own : Int) = z at *
  generalize chunkTime own size * (own : Int) = y at *
  clear p1 p2 hq
  simp only [second] at *
  omega

/-! The hypotheses can be met. -/

def exState (size : Nat) (time : Int) : State Unit := ⟨[], [scheduled 0 time size 0, scheduled 0 time size 1, scheduled 0 time size 2], []⟩

theorem ex_arrived (size : Nat) (time : Int) (hs : 0 < size) : ChunksArrive (⟨[], [], []⟩ : State Unit)
    [scheduled 0 time size 2, scheduled 0 time size 0, scheduled 0 time size 1] (exState size time) :=
  .cons (s1 := ⟨[], [scheduled 0 time size 2], []⟩) ⟨⟨.refl _, by simp⟩, rfl, rfl⟩ <|
    .cons (s1 := ⟨[], [scheduled 0 time size 0, scheduled 0 time size 2], []⟩) ⟨⟨List.Perm.swap _ _ _, by simp [scheduled]⟩, rfl, rfl⟩ <|
    .cons (s1 := exState size time) ⟨⟨by
      simp only [exState]
      exact List.Perm.cons _ (List.Perm.swap _ _ _), by simp [exState, scheduled]; omega⟩, rfl, rfl⟩ <|
    .nil _

/-- Half the server's rate: at 2.5 s, in chunk 2, the infoer is in its period for chunk 1 and shows sample 7, a right one 10. -/
theorem ex_lag : chunkTime 4 4 = 1000000000 ∧ chunkTime 2 4 = 2000000000 ∧
    (0 : Int) + ((1 : Nat) - 1 : Int) * chunkTime 4 4 + chunkTime 2 4 < 2500000000 ∧
    (2500000000 : Int) ≤ 0 + (1 : Nat) * chunkTime 4 4 + chunkTime 2 4 ∧
    (info 2 2500000000 (exState 4 1000000000)).1.sample = 7 ∧ (info 4 2500000000 (exState 4 1000000000)).1.sample = 10 := by
  decide +kernel

/-- Four times the server's rate: after half a second the infoer shows sample 4, a nanosecond later -7. -/
theorem ex_back : 2 * second ≤ (chunkTime 2 4 - chunkTime 8 4 - 1) * 8 ∧ (info 8 500000000 (exState 4 2000000000)).1.sample = 4 ∧
    (info 8 500000001 (info 8 500000000 (exState 4 2000000000)).2).1.sample = -7 := by
  decide +kernel

/-- Rate 0: the first chunk announced crashes the infoer. -/
theorem ex_crash : (info? 0 1 (exState 4 1000000000)).isNone = true ∧ (info? 0 1 (⟨[], [], []⟩ : State Unit)).isSome = true := by
  decide +kernel

end MS.InfoRate
