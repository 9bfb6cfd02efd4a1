import Verif.Model.Infoer
/-!
# Properties C41-C44: position, song and pauses shown by the infoer
-/
set_option linter.unusedSimpArgs false
namespace MS.Infoer

theorem snocInd {α : Type} {P : List α → Prop} (nil : P []) (snoc : ∀ l a, P l → P (l ++ [a])) : ∀ l, P l := by
  intro l
  have : P l.reverse.reverse := by
    induction l.reverse with
    | nil => exact nil
    | cons a t ih => rw [List.reverse_cons]; exact snoc _ _ ih
  simpa using this

/-! ## C43: the paused count -/

/-- Specification: whether playback is on at sample index `k`, given toggles in chronological order: the last toggle at
or before `k` decides; before the first toggle playback is on. -/
def playingAt (ts : List Toggle) (k : Nat) : Bool :=
  ((ts.filter (fun t => decide (t.toggleIndex ≤ k))).getLast?.map (·.playing)).getD true

/-- Specification: the number of sample indices in `[a, b)` at which playback is paused. -/
def pausedCount (ts : List Toggle) (a b : Nat) : Nat := (List.range' a (b - a)).countP (fun k => !playingAt ts k)

/-- Chronological order. -/
def Chrono (ts : List Toggle) : Prop := ts.Pairwise (fun a b => a.toggleIndex ≤ b.toggleIndex)

theorem u64_nat (n : Nat) (h : n < 2 ^ 63) : u64 (n : Int) = n := by
  simp only [u64]; omega

theorem playingAt_snoc_lt (P : List Toggle) (p : Toggle) (k : Nat) (h : k < p.toggleIndex) :
    playingAt (P ++ [p]) k = playingAt P k := by
  simp [playingAt, List.filter_append, List.filter_cons, Nat.not_le.2 h]

theorem playingAt_snoc_ge (P : List Toggle) (p : Toggle) (k : Nat) (h : p.toggleIndex ≤ k) :
    playingAt (P ++ [p]) k = p.playing := by
  simp [playingAt, List.filter_append, List.filter_cons, h]

/-- State after all toggles. -/
def lastState (P : List Toggle) : Bool := (P.getLast?.map (·.playing)).getD true

theorem playingAt_all (P : List Toggle) (k : Nat) (h : ∀ t ∈ P, t.toggleIndex ≤ k) : playingAt P k = lastState P := by
  have : P.filter (fun t => decide (t.toggleIndex ≤ k)) = P := by
    rw [List.filter_eq_self]; intro t ht; simpa using h t ht
  rw [playingAt, this, lastState]

theorem pausedCount_split (ts : List Toggle) (a b c : Nat) (h1 : a ≤ b) (h2 : b ≤ c) :
    pausedCount ts a c = pausedCount ts a b + pausedCount ts b c := by
  simp only [pausedCount]
  have : List.range' a (c - a) = List.range' a (b - a) ++ List.range' b (c - b) := by
    have := List.range'_append_1 (s := a) (m := b - a) (n := c - b)
    rw [show a + (b - a) = b by omega, show (b - a) + (c - b) = c - a by omega] at this
    exact this.symm
  rw [this, List.countP_append]

theorem pausedCount_congr {ts ts' : List Toggle} {a b : Nat} (h : ∀ k, a ≤ k → k < b → playingAt ts k = playingAt ts' k) :
    pausedCount ts a b = pausedCount ts' a b := by
  simp only [pausedCount]
  apply List.countP_congr
  intro k hk
  rw [List.mem_range'_1] at hk
  rw [h k hk.1 (by omega)]

theorem pausedCount_const {ts : List Toggle} {a b : Nat} {v : Bool} (h : ∀ k, a ≤ k → k < b → playingAt ts k = v) :
    pausedCount ts a b = if v then 0 else b - a := by
  simp only [pausedCount]
  cases v with
  | true =>
    simp only [if_true]
    rw [List.countP_eq_zero]
    intro k hk
    rw [List.mem_range'_1] at hk
    simp [h k hk.1 (by omega)]
  | false =>
    have : (List.range' a (b - a)).countP (fun k => !playingAt ts k) = (List.range' a (b - a)).length := by
      rw [List.countP_eq_length]
      intro k hk
      rw [List.mem_range'_1] at hk
      simp [h k hk.1 (by omega)]
    rw [this]; simp

/-- What the loop has computed after chronologically ordered toggles before the sample. -/
def Good (start : Nat) (P : List Toggle) (st : Picss) : Prop :=
  st.playing = lastState P ∧
    ∀ x : Nat, start ≤ x → (∀ t ∈ P, t.toggleIndex ≤ x) →
      (st.playing = true → st.paused = (pausedCount P start x : Int)) ∧
      (st.playing = false → st.paused + ((x : Int) - st.pauseBegin) = (pausedCount P start x : Int))

theorem good_step (n start : Nat) (hn : n < 2 ^ 63) (P : List Toggle) (p : Toggle)
    (hle : ∀ t ∈ P, t.toggleIndex ≤ p.toggleIndex) (hpn : p.toggleIndex < n) (st : Picss) (h : Good start P st) :
    Good start (P ++ [p]) (handlePause n start st p) := by
  obtain ⟨ih1, ih2⟩ := h
  have hlast : lastState (P ++ [p]) = p.playing := by simp [lastState]
  by_cases hsame : st.playing = p.playing
  · have : handlePause n start st p = st := by simp [handlePause, hsame]
    rw [this]
    refine ⟨by rw [hlast]; exact hsame, ?_⟩
    intro x hx hall
    rw [pausedCount_congr (ts := P ++ [p]) (ts' := P)]
    · exact ih2 x hx (fun t ht => hall t (by simp [ht]))
    · intro k _ _
      rcases Nat.lt_or_ge k p.toggleIndex with h | h
      · exact playingAt_snoc_lt P p k h
      · rw [playingAt_snoc_ge P p k h, playingAt_all P k (fun t ht => Nat.le_trans (hle t ht) h), ← ih1, hsame]
  · have hu : ¬ u64 (n : Int) ≤ p.toggleIndex := by rw [u64_nat n hn]; omega
    have hpl : (handlePause n start st p).playing = p.playing := by
      simp [handlePause, hu, hsame]
    refine ⟨by rw [hlast, hpl], ?_⟩
    intro x hx hall
    have hpx := hall p (by simp)
    -- count after the toggle
    have hafter : ∀ a, p.toggleIndex ≤ a → pausedCount (P ++ [p]) a x = if p.playing then 0 else x - a := by
      intro a ha
      exact pausedCount_const (fun k hk _ => playingAt_snoc_ge P p k (by omega))
    have hbefore : pausedCount (P ++ [p]) start p.toggleIndex = pausedCount P start p.toggleIndex :=
      pausedCount_congr (fun k _ hk => playingAt_snoc_lt P p k hk)
    rw [hpl]
    rcases Nat.lt_or_ge p.toggleIndex start with hps | hps
    · -- the toggle lies before the song
      rw [hafter start (by omega)]
      cases hp : p.playing with
      | true => rw [hp] at hsame; simp [handlePause, hu, hsame, hps, hp]
      | false => rw [hp] at hsame; simp [handlePause, hu, hsame, hps, hp]; omega
    · rw [pausedCount_split (P ++ [p]) start p.toggleIndex x hps hpx, hbefore, hafter _ (Nat.le_refl _)]
      obtain ⟨i1, i2⟩ := ih2 p.toggleIndex hps hle
      cases hp : p.playing with
      | true =>
        rw [hp] at hsame
        have hs : st.playing = false := by simpa using hsame
        have := i2 hs
        simp [handlePause, hu, hs, hp, Nat.not_lt.2 hps]
        omega
      | false =>
        rw [hp] at hsame
        have hs : st.playing = true := by simpa using hsame
        have := i1 hs
        simp [handlePause, hu, hs, hp, Nat.not_lt.2 hps]
        omega

theorem fold_spec (n start : Nat) (hn : n < 2 ^ 63) (P : List Toggle) (hc : Chrono P)
    (hlt : ∀ t ∈ P, t.toggleIndex < n) : Good start P (P.foldl (handlePause n start) ⟨true, 0, 0⟩) := by
  induction P using snocInd with
  | nil =>
    refine ⟨rfl, ?_⟩
    intro x hx _
    rw [pausedCount_const (v := true) (fun k _ _ => by rfl)]
    simp
  | snoc P p ih =>
    simp only [Chrono, List.pairwise_append] at hc
    rw [List.foldl_append]
    exact good_step n start hn P p (fun t ht => hc.2.2 t ht p (by simp)) (hlt p (by simp)) _
      (ih hc.1 (fun t ht => hlt t (by simp [ht])))

theorem fold_filter (n start : Nat) (hn : n < 2 ^ 63) (ts : List Toggle) (st : Picss) :
    ts.foldl (handlePause n start) st =
      (ts.filter (fun t => decide (t.toggleIndex < n))).foldl (handlePause n start) st := by
  induction ts generalizing st with
  | nil => rfl
  | cons t ts ih =>
    by_cases h : t.toggleIndex < n
    · simp [List.filter_cons, h, ih]
    · have : handlePause n start st t = st := by
        have hu : u64 (n : Int) ≤ t.toggleIndex := by rw [u64_nat n hn]; omega
        simp [handlePause, hu]
      simp [List.filter_cons, h, ih, this]

/-- C43, for toggles in chronological order: at sample `n` in (or after) the song, the computed count is the number of
paused sample indices since the song's start, and the play state is that of the last toggle before `n`. -/
theorem C43_chrono (ts : List Toggle) (hc : Chrono ts) (start n : Nat) (hs : start ≤ n) (hn : n < 2 ^ 63) :
    pausesInCurrentSong n start ts =
      ((pausedCount ts start n : Int), lastState (ts.filter (fun t => decide (t.toggleIndex < n)))) := by
  simp only [pausesInCurrentSong]
  rw [fold_filter n start hn ts]
  have hP : ∀ t ∈ ts.filter (fun t => decide (t.toggleIndex < n)), t.toggleIndex < n := by
    intro t ht; simpa using (List.mem_filter.1 ht).2
  obtain ⟨h1, h2⟩ := fold_spec n start hn (ts.filter (fun t => decide (t.toggleIndex < n)))
    (List.Pairwise.sublist List.filter_sublist hc) hP
  have h2 := h2 n hs (fun t ht => Nat.le_of_lt (hP t ht))
  have hcnt : pausedCount (ts.filter (fun t => decide (t.toggleIndex < n))) start n = pausedCount ts start n := by
    apply pausedCount_congr
    intro k _ hk
    simp only [playingAt, List.filter_filter]
    congr 3
    apply List.filter_congr
    intro t _
    by_cases h : t.toggleIndex ≤ k
    · simp [h]; omega
    · simp [h]
  rw [hcnt] at h2
  generalize (ts.filter (fun t => decide (t.toggleIndex < n))).foldl (handlePause n start) ⟨true, 0, 0⟩ = st at *
  rw [← h1]
  cases hp : st.playing with
  | true => simp [h2.1 hp]
  | false => simp [h2.2 hp]

example : Chrono [⟨false, 100⟩, ⟨true, 200⟩, ⟨false, 250⟩] ∧
    pausesInCurrentSong 260 150 [⟨false, 100⟩, ⟨true, 200⟩, ⟨false, 250⟩] = (60, false) := by
  refine ⟨by simp [Chrono], by decide⟩

/-! ### Arrival in any order -/

/-- Handling toggle messages in some arrival order. -/
inductive PausesArrive {σ : Type} : State σ → List Toggle → State σ → Prop
  | nil (s) : PausesArrive s [] s
  | cons {s s1 s2 m ms} (h : HandlePause s m s1) (hs : PausesArrive s1 ms s2) : PausesArrive s (m :: ms) s2

theorem pausesArrive_spec {σ : Type} {s s' : State σ} {ms : List Toggle} (h : PausesArrive s ms s')
    (hs : Chrono s.pauses) : s'.pauses.Perm (s.pauses ++ ms) ∧ Chrono s'.pauses := by
  induction h with
  | nil => exact ⟨by simp, hs⟩
  | cons h1 _ ih =>
    obtain ⟨⟨hp, hsort⟩, _, _⟩ := h1
    obtain ⟨i1, i2⟩ := ih hsort
    refine ⟨i1.trans ?_, i2⟩
    exact (List.Perm.append_right _ hp).trans (by simp)

/-- Specification of the play state from an unordered set of toggles with distinct indices: at `k`, the state is `b`. -/
def StateAt (toggles : List Toggle) (k : Nat) (b : Bool) : Prop :=
  (∃ t ∈ toggles, t.toggleIndex ≤ k ∧ t.playing = b ∧ ∀ t' ∈ toggles, t'.toggleIndex ≤ k → t'.toggleIndex ≤ t.toggleIndex) ∨
    (b = true ∧ ∀ t ∈ toggles, k < t.toggleIndex)

theorem last_max {l : List Toggle} (hc : Chrono l) {t : Toggle} (ht : l.getLast? = some t) :
    t ∈ l ∧ ∀ t' ∈ l, t'.toggleIndex ≤ t.toggleIndex := by
  have hm := List.mem_of_getLast? ht
  refine ⟨hm, ?_⟩
  obtain ⟨x, rfl⟩ : ∃ x, l = x ++ [t] := by
    rw [List.getLast?_eq_some_iff] at ht; exact ht
  intro t' h'
  rcases List.mem_append.1 h' with h' | h'
  · exact (List.pairwise_append.1 hc).2.2 t' h' t (by simp)
  · simp at h'; simp [h']

theorem playingAt_stateAt {ts arrived : List Toggle} (hp : ts.Perm arrived) (hc : Chrono ts) (k : Nat) :
    StateAt arrived k (playingAt ts k) := by
  simp only [playingAt]
  cases hl : (ts.filter (fun t => decide (t.toggleIndex ≤ k))).getLast? with
  | none =>
    right
    refine ⟨rfl, fun t ht => ?_⟩
    rw [List.getLast?_eq_none_iff, List.filter_eq_nil_iff] at hl
    have := hl t (hp.symm.subset ht)
    simpa using this
  | some t =>
    left
    obtain ⟨h1, h2⟩ := last_max (List.Pairwise.sublist List.filter_sublist hc) hl
    rw [List.mem_filter] at h1
    exact ⟨t, hp.subset h1.1, by simpa using h1.2, rfl, fun t' h' hk =>
      h2 t' (List.mem_filter.2 ⟨hp.symm.subset h', by simpa using hk⟩)⟩

/-- C43. Whatever the order in which pause messages arrive: the displayed paused count is the number of indices in
`[start, n)` whose state is "paused", the state at an index being that of the newest toggle up to it; and the displayed
play state is the state at the last index before `n`. -/
theorem C43_any_arrival_order {σ : Type} (s0 s : State σ) (h0 : s0.pauses = []) (arrived : List Toggle)
    (ha : PausesArrive s0 arrived s) (start n : Nat) (hs : start ≤ n) (hn : n < 2 ^ 63) :
    ∃ playing : Nat → Bool, (∀ k, StateAt arrived k (playing k)) ∧
      (pausesInCurrentSong n start s.pauses).1 = ((List.range' start (n - start)).countP (fun k => !playing k) : Nat) ∧
      (0 < n → (pausesInCurrentSong n start s.pauses).2 = playing (n - 1)) := by
  obtain ⟨hp, hc⟩ := pausesArrive_spec ha (by rw [h0]; exact List.Pairwise.nil)
  rw [h0, List.nil_append] at hp
  refine ⟨playingAt s.pauses, playingAt_stateAt hp hc, ?_, ?_⟩
  · rw [C43_chrono _ hc start n hs hn]; rfl
  · intro h0
    rw [C43_chrono _ hc start n hs hn, playingAt]
    simp only [lastState]
    congr 3
    apply List.filter_congr
    intro t _
    simp
    omega

/-- Non-vacuity: a resume that arrives before its pause. -/
example : ∃ s : State Unit, PausesArrive ⟨[], [], []⟩ [⟨true, 200⟩, ⟨false, 100⟩] s ∧
    pausesInCurrentSong 260 150 s.pauses = (50, true) :=
  ⟨⟨[], [], [⟨false, 100⟩, ⟨true, 200⟩]⟩,
    .cons (s1 := ⟨[], [], [⟨true, 200⟩]⟩) ⟨⟨.refl _, by simp⟩, rfl, rfl⟩
      (.cons (s1 := ⟨[], [], [⟨false, 100⟩, ⟨true, 200⟩]⟩) ⟨⟨List.Perm.swap _ _ _, by simp⟩, rfl, rfl⟩ (.nil _)), by decide⟩

/-- The state at an index is unique if the indices of the toggles are distinct, so C43 determines the display. -/
theorem stateAt_unique {toggles : List Toggle} (hd : ∀ a ∈ toggles, ∀ b ∈ toggles, a.toggleIndex = b.toggleIndex → a = b)
    {k : Nat} {b b' : Bool} (h : StateAt toggles k b) (h' : StateAt toggles k b') : b = b' := by
  rcases h with ⟨t, ht, hk, rfl, hm⟩ | ⟨rfl, hn⟩ <;> rcases h' with ⟨t', ht', hk', rfl, hm'⟩ | ⟨rfl, hn'⟩
  · rw [hd t ht t' ht' (Nat.le_antisymm (hm' t ht hk) (hm t' ht' hk'))]
  · exact absurd hk (Nat.not_le.2 (hn' t ht))
  · exact absurd hk' (Nat.not_le.2 (hn t' ht'))
  · rfl

/-! ## C41: the position -/

/-- Specification: chunk `n` of the server's schedule (see C13): starts at `start`, chunks of `size` samples every
`time` nanoseconds. -/
def scheduled (start time : Int) (size n : Nat) : Chunk := ⟨start + n * time, n * size, size⟩

theorem removeOld_head (rate : Nat) (now : Int) (cs : List Chunk) :
    (removeOldChunks rate now cs).head? = cs.find? (fun c => decide (now ≤ c.endTime rate)) := by
  induction cs with
  | nil => rfl
  | cons c cs ih =>
    simp only [removeOldChunks, List.find?_cons]
    by_cases h : now ≤ c.endTime rate
    · simp [h]
    · simp [h, ih]

theorem sampleAt_find (rate : Nat) (now : Int) (cs : List Chunk) :
    sampleAt rate now (removeOldChunks rate now cs) =
      match cs.find? (fun c => decide (now ≤ c.endTime rate)) with
      | some c => c.startIndex + ((now - c.startTime) * rate).tdiv second
      | none => 0 := by
  rw [← removeOld_head]
  cases removeOldChunks rate now cs <;> rfl

/-- The chunk time the server computes from the chunk size (cmd/music-sync-server/main.go:63) is the length the infoer
computes for the chunk. -/
def chunkTime (rate size : Nat) : Int := ((size : Int) * second).tdiv rate

theorem chunkTime_bounds (rate size : Nat) (hr : 0 < rate) :
    chunkTime rate size * rate ≤ size * second ∧ (size : Int) * second < (chunkTime rate size + 1) * rate ∧
      0 ≤ chunkTime rate size := by
  have h0 : (0 : Int) ≤ size * second := Int.mul_nonneg (by omega) (by decide)
  have hrI : (0 : Int) < rate := by omega
  rw [chunkTime, Int.tdiv_eq_ediv_of_nonneg h0]
  have h1 := Int.ediv_mul_le ((size : Int) * second) (b := rate) (by omega)
  have h2 := Int.lt_ediv_add_one_mul_self ((size : Int) * second) hrI
  exact ⟨h1, h2, Int.ediv_nonneg h0 (by omega)⟩

theorem scheduled_end (rate size : Nat) (start : Int) (k : Nat) :
    (scheduled start (chunkTime rate size) size k).endTime rate = start + (k + 1) * chunkTime rate size := by
  simp only [scheduled, Chunk.endTime, Chunk.len]
  rw [← chunkTime]
  have : ((k : Int) + 1) * chunkTime rate size = k * chunkTime rate size + chunkTime rate size := by
    rw [Int.add_mul]; simp
  omega

theorem find_scheduled (rate size : Nat) (hsz : 0 < size) (start : Int) (htpos : 0 < chunkTime rate size)
    (cs : List Chunk) (hsched : ∀ c ∈ cs, ∃ n, c = scheduled start (chunkTime rate size) size n)
    (hsort : cs.Pairwise (fun a b => a.startIndex ≤ b.startIndex))
    (n : Nat) (hn : scheduled start (chunkTime rate size) size n ∈ cs) (now : Int)
    (h1 : start + n * chunkTime rate size < now) (h2 : now ≤ start + (n + 1) * chunkTime rate size) :
    cs.find? (fun c => decide (now ≤ c.endTime rate)) = some (scheduled start (chunkTime rate size) size n) := by
  have hend := scheduled_end rate size start
  generalize chunkTime rate size = time at *
  induction cs with
  | nil => simp at hn
  | cons c cs ih =>
    obtain ⟨k, rfl⟩ := hsched c (by simp)
    rw [List.find?_cons]
    rw [List.pairwise_cons] at hsort
    have hk : k ≤ n ∨ scheduled start time size n = scheduled start time size k := by
      rcases List.mem_cons.1 hn with h | h
      · exact .inr h
      · left
        have := hsort.1 _ h
        simp only [scheduled] at this
        exact Nat.le_of_mul_le_mul_right this hsz
    have hk' : k ≤ n := by
      rcases hk with h | h
      · exact h
      · have := congrArg Chunk.startIndex h
        simp only [scheduled] at this
        exact Nat.le_of_mul_le_mul_right (Nat.le_of_eq this.symm) hsz
    rcases Nat.lt_or_ge k n with hlt | hge
    · have : ¬ now ≤ (scheduled start time size k).endTime rate := by
        rw [hend]
        have : ((k : Int) + 1) * time ≤ n * time := Int.mul_le_mul_of_nonneg_right (by omega) (by omega)
        omega
      simp only [this, decide_false]
      refine ih hsort.2 (fun c hc => hsched c (by simp [hc])) ?_
      rcases List.mem_cons.1 hn with h | h
      · exfalso
        have := congrArg Chunk.startIndex h
        simp only [scheduled] at this
        have := Nat.eq_of_mul_eq_mul_right hsz this
        omega
      · exact h
    · have : k = n := by omega
      subst this
      have : now ≤ (scheduled start time size k).endTime rate := by rw [hend]; exact h2
      simp [this]

/-- Handling chunk messages in some arrival order. -/
inductive ChunksArrive {σ : Type} : State σ → List Chunk → State σ → Prop
  | nil (s) : ChunksArrive s [] s
  | cons {s s1 s2 m ms} (h : HandleChunk s m s1) (hs : ChunksArrive s1 ms s2) : ChunksArrive s (m :: ms) s2

theorem chunksArrive_spec {σ : Type} {s s' : State σ} {ms : List Chunk} (h : ChunksArrive s ms s')
    (hs : s.chunks.Pairwise (fun a b => a.startIndex ≤ b.startIndex)) :
    s'.chunks.Perm (s.chunks ++ ms) ∧ s'.chunks.Pairwise (fun a b => a.startIndex ≤ b.startIndex) := by
  induction h with
  | nil => exact ⟨by simp, hs⟩
  | cons h1 _ ih =>
    obtain ⟨⟨hp, hsort⟩, _, _⟩ := h1
    obtain ⟨i1, i2⟩ := ih hsort
    exact ⟨i1.trans ((List.Perm.append_right _ hp).trans (by simp)), i2⟩

/-- C41. Whatever scheduled chunks have arrived, in whatever order: if the chunk `n` playing at `now` is among them, the
displayed sample is its first index plus `⌊(now - its start)·rate / 1s⌋`. -/
theorem C41_position {σ : Type} (rate size : Nat) (hr : 0 < rate) (hsz : 0 < size) (start : Int) (s0 s : State σ)
    (h0 : s0.chunks = []) (arrived : List Chunk) (ha : ChunksArrive s0 arrived s)
    (hsched : ∀ c ∈ arrived, ∃ n, c = scheduled start (chunkTime rate size) size n)
    (n : Nat) (hn : scheduled start (chunkTime rate size) size n ∈ arrived) (now : Int)
    (h1 : start + n * chunkTime rate size < now) (h2 : now ≤ start + (n + 1) * chunkTime rate size) :
    (info rate now s).1.sample = n * size + ((now - (start + n * chunkTime rate size)) * rate) / second := by
  have htpos : 0 < chunkTime rate size := by
    have := Int.add_mul (n : Int) 1 (chunkTime rate size)
    omega
  obtain ⟨hp, hs⟩ := chunksArrive_spec ha (by rw [h0]; exact List.Pairwise.nil)
  rw [h0, List.nil_append] at hp
  have hsample : (info rate now s).1.sample = sampleAt rate now (removeOldChunks rate now s.chunks) := by
    simp only [info]; split <;> rfl
  rw [hsample, sampleAt_find, find_scheduled rate size hsz start htpos s.chunks
    (fun c hc => hsched c (hp.subset hc)) hs n (hp.symm.subset hn) now h1 h2]
  simp only [scheduled]
  have hnn : 0 ≤ (now - (start + n * chunkTime rate size)) * rate := Int.mul_nonneg (by omega) (by omega)
  rw [Int.tdiv_eq_ediv_of_nonneg hnn]
  push_cast
  rfl

example : (info (σ := Unit) 44100 7000000000 ⟨[], [⟨5000000000, 0, 44100⟩, ⟨6000000000, 44100, 44100⟩], []⟩).1.sample =
    88200 := by decide

/-- C41. That position lies in the playing chunk, up to its end; it is monotone in time, also across chunks; and at the
border the last value in chunk `n` is within one sample of the first index of chunk `n + 1` (for rates up to 1 GHz),
exactly equal to it if the chunk size is a whole number of nanoseconds. -/
theorem C41_monotone_and_continuous (rate size : Nat) (hr : 0 < rate) (start : Int)
    (pos : Nat → Int → Int)
    (hpos : ∀ n now, pos n now = n * size + ((now - (start + n * chunkTime rate size)) * rate) / second) :
    (∀ (n : Nat) (now : Int), start + n * chunkTime rate size ≤ now → now ≤ start + (n + 1) * chunkTime rate size →
      (n * size : Int) ≤ pos n now ∧ pos n now ≤ (n + 1) * size) ∧
    (∀ (n n' : Nat) (now now' : Int), now ≤ now' →
      start + n * chunkTime rate size < now → now ≤ start + (n + 1) * chunkTime rate size →
      start + n' * chunkTime rate size < now' → now' ≤ start + (n' + 1) * chunkTime rate size →
      pos n now ≤ pos n' now') ∧
    (rate ≤ 1000000000 → ∀ n : Nat, ((n + 1) * size : Int) - 1 ≤ pos n (start + (n + 1) * chunkTime rate size)) ∧
    (chunkTime rate size * rate = size * second → ∀ n : Nat,
      pos n (start + (n + 1) * chunkTime rate size) = (n + 1) * size) := by
  obtain ⟨b1, b2, b3⟩ := chunkTime_bounds rate size hr
  have hsec : (0 : Int) < second := by decide
  generalize hT : chunkTime rate size = time at *
  have hin : ∀ (n : Nat) (now : Int), start + n * time ≤ now → now ≤ start + (n + 1) * time →
      (n * size : Int) ≤ pos n now ∧ pos n now ≤ (n + 1) * size := by
    intro n now h1 h2
    rw [hpos]
    have e1 : ((n : Int) + 1) * time = n * time + time := by rw [Int.add_mul]; simp
    have e2 : ((n : Int) + 1) * size = n * size + size := by rw [Int.add_mul]; simp
    have l0 : 0 ≤ (now - (start + n * time)) * rate / second :=
      Int.ediv_nonneg (Int.mul_nonneg (by omega) (by omega)) (by omega)
    have l1 : (now - (start + n * time)) * rate / second ≤ size := by
      have : (now - (start + n * time)) * rate ≤ time * rate := Int.mul_le_mul_of_nonneg_right (by omega) (by omega)
      have h3 : (now - (start + n * time)) * rate ≤ size * second := by omega
      have := Int.ediv_le_ediv hsec h3
      rwa [Int.mul_ediv_cancel _ (by omega)] at this
    omega
  have hlast : ∀ n : Nat, pos n (start + (n + 1) * time) = n * size + time * rate / second := by
    intro n
    rw [hpos]
    have e1 : ((n : Int) + 1) * time = n * time + time := by rw [Int.add_mul]; simp
    rw [show start + ((n : Int) + 1) * time - (start + n * time) = time by omega]
  refine ⟨hin, ?_, ?_, ?_⟩
  · intro n n' now now' hle h1 h2 h3 h4
    rcases Nat.lt_trichotomy n n' with hlt | rfl | hgt
    · have a := (hin n now (by omega) h2).2
      have b := (hin n' now' (by omega) h4).1
      have : ((n : Int) + 1) * size ≤ n' * size := Int.mul_le_mul_of_nonneg_right (by omega) (by omega)
      omega
    · rw [hpos, hpos]
      have : (now - (start + n * time)) * rate ≤ (now' - (start + n * time)) * rate :=
        Int.mul_le_mul_of_nonneg_right (by omega) (by omega)
      have := Int.ediv_le_ediv hsec this
      omega
    · exfalso
      have : ((n' : Int) + 1) * time ≤ n * time := Int.mul_le_mul_of_nonneg_right (by omega) (by omega)
      omega
  · intro hrate n
    rw [hlast]
    have e2 : ((n : Int) + 1) * size = n * size + size := by rw [Int.add_mul]; simp
    have : (size : Int) - 1 ≤ time * rate / second := by
      rw [Int.le_ediv_iff_mul_le hsec]
      have : (time + 1) * rate = time * rate + rate := by rw [Int.add_mul]; simp
      have e3 : ((size : Int) - 1) * second = size * second - second := by rw [Int.sub_mul]; simp
      have : second = 1000000000 := rfl
      omega
    omega
  · intro he n
    rw [hlast, he, Int.mul_ediv_cancel _ (by omega)]
    rw [Int.add_mul]; simp

/-- With no chunk left (stream interrupted) the displayed position is 0. -/
theorem C41_no_chunk (rate : Nat) (now : Int) (cs : List Chunk) (h : ∀ c ∈ cs, c.endTime rate < now) :
    sampleAt rate now (removeOldChunks rate now cs) = 0 := by
  rw [sampleAt_find, List.find?_eq_none.2]
  intro c hc
  have := h c hc
  simp
  omega

/-! ## C42: the song -/

inductive SongsArrive {σ : Type} : State σ → List (Song σ) → State σ → Prop
  | nil (s) : SongsArrive s [] s
  | cons {s s1 s2 m ms} (h : HandleSong s m s1) (hs : SongsArrive s1 ms s2) : SongsArrive s (m :: ms) s2

theorem songsArrive_spec {σ : Type} {s s' : State σ} {ms : List (Song σ)} (h : SongsArrive s ms s')
    (hs : s.songs.Pairwise (fun a b => a.startIndex ≤ b.startIndex)) :
    s'.songs.Perm (s.songs ++ ms) ∧ s'.songs.Pairwise (fun a b => a.startIndex ≤ b.startIndex) := by
  induction h with
  | nil => exact ⟨by simp, hs⟩
  | cons h1 _ ih =>
    obtain ⟨⟨hp, hsort⟩, _, _⟩ := h1
    obtain ⟨i1, i2⟩ := ih hsort
    exact ⟨i1.trans ((List.Perm.append_right _ hp).trans (by simp)), i2⟩

theorem find_reverse_sorted {σ : Type} (sample : Int) (l : List (Song σ))
    (hs : l.Pairwise (fun a b => a.startIndex ≤ b.startIndex)) (x : Song σ)
    (h : l.reverse.find? (fun s => decide ((s.startIndex : Int) < sample)) = some x) :
    x ∈ l ∧ (x.startIndex : Int) < sample ∧ ∀ y ∈ l, (y.startIndex : Int) < sample → y.startIndex ≤ x.startIndex := by
  induction l using snocInd with
  | nil => simp at h
  | snoc l a ih =>
    rw [List.reverse_append] at h
    simp only [List.reverse_cons, List.reverse_nil, List.nil_append, List.cons_append, List.find?_cons] at h
    rw [List.pairwise_append] at hs
    by_cases ha : (a.startIndex : Int) < sample
    · simp [ha] at h
      subst h
      refine ⟨by simp, ha, ?_⟩
      intro y hy _
      rcases List.mem_append.1 hy with hy | hy
      · exact hs.2.2 y hy a (by simp)
      · simp at hy; simp [hy]
    · simp only [ha, decide_false] at h
      obtain ⟨h1, h2, h3⟩ := ih hs.1 h
      refine ⟨by simp [h1], h2, ?_⟩
      intro y hy hys
      rcases List.mem_append.1 hy with hy | hy
      · exact h3 y hy hys
      · simp at hy; subst hy; exact absurd hys ha

/-- C42. Whatever the order of the announcements: the displayed song is an announced song that has started (strictly
before the current sample) and no other started song starts later; "None" is shown iff no song has started. -/
theorem C42_newest_started {σ : Type} (s0 s : State σ) (h0 : s0.songs = []) (announced : List (Song σ))
    (ha : SongsArrive s0 announced s) (sample : Int) :
    (∀ x, currentSong sample s.songs = some x →
      x ∈ announced ∧ (x.startIndex : Int) < sample ∧
        ∀ y ∈ announced, (y.startIndex : Int) < sample → y.startIndex ≤ x.startIndex) ∧
    (currentSong sample s.songs = none ↔ ∀ y ∈ announced, sample ≤ y.startIndex) := by
  obtain ⟨hp, hs⟩ := songsArrive_spec ha (by rw [h0]; exact List.Pairwise.nil)
  rw [h0, List.nil_append] at hp
  refine ⟨?_, ?_⟩
  · intro x hx
    obtain ⟨h1, h2, h3⟩ := find_reverse_sorted sample s.songs hs x hx
    exact ⟨hp.subset h1, h2, fun y hy => h3 y (hp.symm.subset hy)⟩
  · simp only [currentSong, List.find?_eq_none, List.mem_reverse]
    constructor
    · intro h y hy
      have := h y (hp.symm.subset hy)
      simp at this; omega
    · intro h y hy
      have := h y (hp.subset hy)
      simp; omega

/-- Non-vacuity: the later song is announced first. -/
example : ∃ s : State Unit, SongsArrive ⟨[], [], []⟩ [⟨(), 200, 5⟩, ⟨(), 100, 7⟩] s ∧
    currentSong 150 s.songs = some ⟨(), 100, 7⟩ ∧ currentSong 201 s.songs = some ⟨(), 200, 5⟩ ∧
    currentSong 100 s.songs = none :=
  ⟨⟨[⟨(), 100, 7⟩, ⟨(), 200, 5⟩], [], []⟩,
    .cons (s1 := ⟨[⟨(), 200, 5⟩], [], []⟩) ⟨⟨.refl _, by simp⟩, rfl, rfl⟩
      (.cons (s1 := ⟨[⟨(), 100, 7⟩, ⟨(), 200, 5⟩], [], []⟩) ⟨⟨List.Perm.swap _ _ _, by simp⟩, rfl, rfl⟩ (.nil _)), by decide, by decide, by decide⟩

/-! ## C44: pruning -/

/-- Two loop states that give the same result: equal except for a pause begin that is not in use. -/
def Same (a b : Picss) : Prop := a.playing = b.playing ∧ a.paused = b.paused ∧ (a.playing = true ∨ a.pauseBegin = b.pauseBegin)

theorem same_step {a b : Picss} (h : Same a b) (sample : Int) (start : Nat) (p : Toggle) :
    Same (handlePause sample start a p) (handlePause sample start b p) := by
  obtain ⟨h1, h2, h3⟩ := h
  simp only [handlePause, h1]
  split
  · exact ⟨h1, h2, h3⟩
  · rename_i hn
    simp only [not_or] at hn
    cases hp : p.playing with
    | true =>
      have hb : a.playing = false := by rw [h1]; have := hn.2; rw [hp] at this; simpa using this
      have hbegin : a.pauseBegin = b.pauseBegin := by rcases h3 with h | h; rw [hb] at h; simp at h; exact h
      by_cases hs : p.toggleIndex < start
      · simp [hs, Same]
      · simp [hs, Same, h2, hbegin]
    | false =>
      by_cases hs : p.toggleIndex < start
      · simp [hs, Same]
      · simp [hs, Same, h2]

theorem same_fold {a b : Picss} (h : Same a b) (sample : Int) (start : Nat) (ps : List Toggle) :
    Same (ps.foldl (handlePause sample start) a) (ps.foldl (handlePause sample start) b) := by
  induction ps generalizing a b with
  | nil => exact h
  | cons p ps ih => exact ih (same_step h sample start p)

/-- Everything up to a resume before (or at) the song's start has no effect on the result. -/
theorem resume_resets (n start : Nat) (hn : n < 2 ^ 63) (P : List Toggle) (r : Toggle) (hc : Chrono (P ++ [r]))
    (hr : r.playing = true) (hrs : r.toggleIndex ≤ start) (hrn : r.toggleIndex < n) :
    Same ((P ++ [r]).foldl (handlePause n start) ⟨true, 0, 0⟩) ⟨true, 0, 0⟩ := by
  have hmax : ∀ t ∈ P ++ [r], t.toggleIndex ≤ r.toggleIndex := by
    intro t ht
    rcases List.mem_append.1 ht with ht | ht
    · exact (List.pairwise_append.1 hc).2.2 t ht r (by simp)
    · simp at ht; simp [ht]
  obtain ⟨h1, h2⟩ := fold_spec n start hn (P ++ [r]) hc (fun t ht => Nat.lt_of_le_of_lt (hmax t ht) hrn)
  have hl : lastState (P ++ [r]) = true := by simp [lastState, hr]
  have h2 := h2 start (Nat.le_refl _) (fun t ht => Nat.le_trans (hmax t ht) hrs)
  rw [hl] at h1
  refine ⟨h1, ?_, .inl h1⟩
  rw [h2.1 h1]
  simp [pausedCount]

theorem same_result {a b : Picss} (h : Same a b) (sample : Int) :
    (if a.playing then (a.paused, a.playing) else (a.paused + (sample - a.pauseBegin), a.playing)) =
    (if b.playing then (b.paused, b.playing) else (b.paused + (sample - b.pauseBegin), b.playing)) := by
  obtain ⟨h1, h2, h3⟩ := h
  cases hp : a.playing with
  | true => rw [← h1, hp]; simp [h2]
  | false =>
    have : a.pauseBegin = b.pauseBegin := by rcases h3 with h | h; rw [hp] at h; simp at h; exact h
    rw [← h1, hp]; simp [h2, this]

/-- Dropping toggles before a resume that lies at or before the song's start does not change the result. -/
theorem drop_before_resume (n start : Nat) (hn : n < 2 ^ 63) (P Q : List Toggle) (r : Toggle) (hc : Chrono (P ++ r :: Q))
    (hr : r.playing = true) (hrs : r.toggleIndex ≤ start) (hrn : r.toggleIndex < n) :
    pausesInCurrentSong n start (P ++ r :: Q) = pausesInCurrentSong n start (r :: Q) := by
  simp only [pausesInCurrentSong]
  have e : P ++ r :: Q = (P ++ [r]) ++ Q := by simp
  rw [e] at hc ⊢
  rw [List.foldl_append]
  have h1 := same_fold (resume_resets n start hn P r (List.pairwise_append.1 hc).1 hr hrs hrn) n start Q
  have h0 : (r :: Q).foldl (handlePause n start) ⟨true, 0, 0⟩ = Q.foldl (handlePause n start) ⟨true, 0, 0⟩ := by
    simp [handlePause, hr]
  rw [h0]
  exact same_result h1 n

/-- With no sample playing (position 0) nothing is counted. -/
theorem pauses_at_zero (start : Nat) (ts : List Toggle) : pausesInCurrentSong 0 start ts = (0, true) := by
  have : ∀ st, ts.foldl (handlePause 0 start) st = st := by
    induction ts with
    | nil => intro st; rfl
    | cons t ts ih =>
      intro st
      have : handlePause 0 start st t = st := by simp [handlePause, u64]
      simp [this, ih]
  simp [pausesInCurrentSong, this]

/-- What pruning keeps: nothing is cut, or the first kept toggle is a resume before the song's start. -/
theorem lastResume_spec (start : Nat) (ps : List Toggle) (pre : List Toggle) (acc : Nat)
    (hacc : acc = 0 ∨ ∃ r, pre[acc]? = some r ∧ r.playing = true ∧ r.toggleIndex < start) :
    lastResume start pre.length acc ps = 0 ∨
      ∃ r, (pre ++ ps)[lastResume start pre.length acc ps]? = some r ∧ r.playing = true ∧ r.toggleIndex < start := by
  induction ps generalizing pre acc with
  | nil => simpa [lastResume] using hacc
  | cons p ps ih =>
    simp only [lastResume]
    have := ih (pre ++ [p]) (if p.playing ∧ p.toggleIndex < start then pre.length else acc) (by
      split
      · rename_i h
        right
        exact ⟨p, by simp, h.1, h.2⟩
      · rcases hacc with h | ⟨r, h1, h2⟩
        · exact .inl h
        · refine .inr ⟨r, ?_, h2⟩
          have : acc < pre.length := by
            rcases Nat.lt_or_ge acc pre.length with h | h
            · exact h
            · rw [List.getElem?_eq_none h] at h1; simp at h1
          rw [List.getElem?_append_left this]; exact h1)
    simpa using this

theorem removeOldPauses_spec (start : Nat) (ps : List Toggle) :
    removeOldPauses start ps = ps ∨ ∃ P r Q, ps = P ++ r :: Q ∧ removeOldPauses start ps = r :: Q ∧ r.playing = true ∧
      r.toggleIndex < start := by
  have := lastResume_spec start ps [] 0 (.inl rfl)
  simp only [List.length_nil, List.nil_append] at this
  rcases this with h | ⟨r, h1, h2, h3⟩
  · left; simp [removeOldPauses, h]
  · right
    generalize hk : lastResume start 0 0 ps = k at *
    refine ⟨ps.take k, r, ps.drop (k + 1), ?_, ?_, h2, h3⟩
    · have hlt : k < ps.length := by
        rcases Nat.lt_or_ge k ps.length with h | h
        · exact h
        · rw [List.getElem?_eq_none h] at h1; simp at h1
      rw [List.getElem?_eq_getElem hlt] at h1
      simp at h1
      rw [← h1, ← List.drop_eq_getElem_cons hlt, List.take_append_drop]
    · have hlt : k < ps.length := by
        rcases Nat.lt_or_ge k ps.length with h | h
        · exact h
        · rw [List.getElem?_eq_none h] at h1; simp at h1
      rw [List.getElem?_eq_getElem hlt] at h1
      simp at h1
      rw [removeOldPauses, hk, List.drop_eq_getElem_cons hlt, h1]

/-! ## C60: the time in the song -/

/-- C60, for a song that does not start at index 0: the displayed time is that of the samples of `[start, n)` at which
playback was on, rounded down; the progress is that number over the song's length; the displayed length is the song's. -/
theorem C60_time_in_song_partial {σ : Type} (rate : Nat) (now : Int) (s : State σ) (n : Nat)
    (hn : n < 2 ^ 63) (hpos : (info rate now s).1.sample = n) (hc : Chrono s.pauses)
    (song : Song σ) (hsong : (info rate now s).1.song = some song) (h0 : song.startIndex ≠ 0) :
    let played := (List.range' song.startIndex (n - song.startIndex)).countP (fun k => playingAt s.pauses k)
    (info rate now s).1.timeInSong = ((played : Int) * second) / rate ∧
      (info rate now s).1.songLength = (song.length * second).tdiv rate ∧
      (info rate now s).1.progress = (if 0 < song.length then some ((played : Int), song.length) else none) := by
  have hsample : sampleAt rate now (removeOldChunks rate now s.chunks) = n := by
    have : (info rate now s).1.sample = sampleAt rate now (removeOldChunks rate now s.chunks) := by
      simp only [info]; split <;> rfl
    rw [← this, hpos]
  have hcur : currentSong (n : Int) s.songs = some song := by
    have : (info rate now s).1.song = currentSong (sampleAt rate now (removeOldChunks rate now s.chunks)) s.songs := by
      simp only [info]; split <;> rfl
    rw [← hsample, ← this, hsong]
  have hlt : song.startIndex < n := by
    have := List.find?_some hcur
    simpa using this
  have hcount : ∀ l : List Nat, ((l.length : Int) - (l.countP (fun k => !playingAt s.pauses k) : Nat)) =
      (l.countP (fun k => playingAt s.pauses k) : Nat) := by
    intro l
    induction l with
    | nil => rfl
    | cons k l ih => cases hk : playingAt s.pauses k <;> simp [List.countP_cons, hk] <;> omega
  have hin : (n : Int) - song.startIndex - (pausedCount s.pauses song.startIndex n : Nat) =
      ((List.range' song.startIndex (n - song.startIndex)).countP (fun k => playingAt s.pauses k) : Nat) := by
    rw [← hcount, pausedCount, List.length_range']
    omega
  have hp := C43_chrono s.pauses hc song.startIndex n (by omega) hn
  have hnoprune : pausesInCurrentSong n song.startIndex (removeOldPauses song.startIndex s.pauses) =
      pausesInCurrentSong n song.startIndex s.pauses := by
    rcases removeOldPauses_spec song.startIndex s.pauses with hk | ⟨P, r, Q, e, hk, h1, h2⟩
    · rw [hk]
    · rw [hk, e]
      rw [e] at hc
      rw [drop_before_resume n song.startIndex hn P Q r hc h1 (by omega) (by omega)]
  intro played
  have hcond : song.startIndex ≠ 0 ∧ (song.startIndex : Int) < n := ⟨h0, by omega⟩
  simp only [info, hsample, hcur, songStart, songLen, hnoprune, hp, if_pos hcond]
  refine ⟨?_, trivial, ?_⟩
  · rw [hin, Int.tdiv_eq_ediv_of_nonneg (Int.mul_nonneg (by omega) (by decide))]
  · rw [hin]

/-- Non-vacuity: 60 samples into the song, 50 of them paused. -/
example : (info (σ := Unit) 1000 7000000000
      ⟨[⟨(), 150, 500⟩], [⟨6790000000, 0, 250⟩], [⟨false, 100⟩, ⟨true, 200⟩]⟩).1 =
    ⟨some ⟨(), 150, 500⟩, 210, 50, true, 500000000, 10000000, some (10, 500)⟩ := by decide

/-- C60 is false for a song that starts at sample index 0: its time, length and progress are never displayed. -/
theorem C60_song_at_zero {σ : Type} (rate : Nat) (now : Int) (s : State σ) (song : Song σ)
    (hsong : (info rate now s).1.song = some song) (h0 : song.startIndex = 0) :
    (info rate now s).1.timeInSong = 0 ∧ (info rate now s).1.songLength = 0 ∧ (info rate now s).1.progress = none := by
  have : (info rate now s).1.song = currentSong (sampleAt rate now (removeOldChunks rate now s.chunks)) s.songs := by
    simp only [info]; split <;> rfl
  rw [this] at hsong
  simp [info, hsong, songStart, h0]

/-! ## C44, continued -/

/-- Specification: the position an infoer that never prunes would show: that in the first chunk, by index, that has not
ended. -/
def idealSample (rate : Nat) (now : Int) (chunks : List Chunk) : Int :=
  match chunks.find? (fun c => decide (now ≤ c.endTime rate)) with
  | some c => (c.startIndex : Int) + ((now - c.startTime) * rate).tdiv second
  | none => 0

/-- Specification: what it would show at that position. -/
def idealAt {σ : Type} (rate : Nat) (sample : Int) (songs : List (Song σ)) (pauses : List Toggle) : PlaybackInfo σ :=
  let song := currentSong sample songs
  let start := songStart song
  let pp := pausesInCurrentSong sample start pauses
  let inSong := sample - start - pp.1
  let len := songLen song
  if start ≠ 0 ∧ (start : Int) < sample then
    ⟨song, sample, pp.1, pp.2, (len * second).tdiv rate, (inSong * second).tdiv rate,
      if 0 < len then some (inSong, len) else none⟩
  else ⟨song, sample, pp.1, pp.2, 0, 0, none⟩

/-- Specification: what an infoer that never prunes anything would display. -/
def ideal {σ : Type} (rate : Nat) (now : Int) (s : State σ) : PlaybackInfo σ :=
  idealAt rate (idealSample rate now s.chunks) s.songs s.pauses

/-- The infoer that prunes (`act`) against one that has everything (`full`): they have the same songs; `act` is missing
only chunks that ended before `t`, and only toggles before some resume that is before `lo`. Indices of the received
chunks and toggles are distinct (both lists are strictly sorted). -/
structure Sim {σ : Type} (rate : Nat) (t : Int) (lo : Nat) (full act : State σ) : Prop where
  songs : act.songs = full.songs
  chunksSub : act.chunks.Sublist full.chunks
  chunksGone : ∀ c ∈ full.chunks, c ∉ act.chunks → c.endTime rate < t
  chunksSorted : full.chunks.Pairwise (fun a b => a.startIndex < b.startIndex)
  pausesSorted : full.pauses.Pairwise (fun a b => a.toggleIndex < b.toggleIndex)
  pauses : act.pauses = full.pauses ∨ ∃ P r Q, full.pauses = P ++ r :: Q ∧ act.pauses.Sublist full.pauses ∧
    (r :: Q).Sublist act.pauses ∧ r.playing = true ∧ r.toggleIndex < lo

theorem find_sublist {p : Chunk → Bool} {a f : List Chunk} (h : a.Sublist f) (hg : ∀ c ∈ f, c ∉ a → p c = false)
    (hd : f.Nodup) : a.find? p = f.find? p := by
  induction h with
  | slnil => rfl
  | @cons l1 l2 x hs ih =>
    rw [List.nodup_cons] at hd
    have hx : x ∉ l1 := fun hm => hd.1 (hs.subset hm)
    rw [List.find?_cons, hg x (by simp) hx]
    exact ih (fun c hc hn => hg c (by simp [hc]) hn) hd.2
  | @cons_cons l1 l2 x hs ih =>
    rw [List.nodup_cons] at hd
    rw [List.find?_cons, List.find?_cons]
    cases p x with
    | true => rfl
    | false =>
      refine ih (fun c hc hn => hg c (by simp [hc]) ?_) hd.2
      intro hm
      rcases List.mem_cons.1 hm with rfl | hm
      · exact hd.1 hc
      · exact hn hm

theorem nodup_of_lt {α : Type} {key : α → Nat} {l : List α} (h : l.Pairwise (fun a b => key a < key b)) : l.Nodup :=
  List.Pairwise.imp (fun hab e => by rw [e] at hab; exact Nat.lt_irrefl _ hab) h

theorem chrono_of_lt {l : List Toggle} (h : l.Pairwise (fun a b => a.toggleIndex < b.toggleIndex)) : Chrono l :=
  List.Pairwise.imp (fun h => Nat.le_of_lt h) h

/-- The pruned toggle list has a suffix from a resume on in common with the full one. -/
theorem sub_form {P Q act : List Toggle} {r : Toggle} (hs : (P ++ r :: Q).Pairwise (fun a b => a.toggleIndex < b.toggleIndex))
    (h1 : act.Sublist (P ++ r :: Q)) (h2 : (r :: Q).Sublist act) : ∃ P', act = P' ++ r :: Q := by
  have hd := nodup_of_lt hs
  obtain ⟨a1, a2, rfl, s1, s2⟩ := List.sublist_append_iff.1 h1
  have hQ : ∀ x ∈ r :: Q, x ∈ a2 := by
    intro x hx
    rcases List.mem_append.1 (h2.subset hx) with hm | hm
    · exact absurd rfl ((List.nodup_append.1 hd).2.2 x (s1.subset hm) x hx)
    · exact hm
  have hlen : (r :: Q).length ≤ a2.length := by
    have hsub : (r :: Q).Sublist a2 := by
      obtain ⟨b1, b2, e, t1, t2⟩ := List.sublist_append_iff.1 h2
      have : b1 = [] := by
        cases b1 with
        | nil => rfl
        | cons y ys =>
          exfalso
          have hy1 : y ∈ P := s1.subset (t1.subset (by simp))
          have hy2 : y ∈ r :: Q := by rw [e]; simp
          exact (List.nodup_append.1 hd).2.2 y hy1 y hy2 rfl
      subst this
      rw [e]; simpa using t2
    exact hsub.length_le
  have := s2.eq_of_length_le hlen
  subst this
  exact ⟨a1, rfl⟩

/-- C44, one query: with everything distinct, the pruning infoer displays exactly what one that never prunes would, and
stays related to it. Hypothesis: the song shown does not start before one shown earlier, except that nothing is shown
(position 0) when no chunk is known. -/
theorem C44_query {σ : Type} (rate : Nat) (t now : Int) (lo : Nat) (full act : State σ) (h : Sim rate t lo full act)
    (htn : t ≤ now) (sample : Int) (hS : sample = idealSample rate now full.chunks) (hpos : 0 ≤ sample)
    (hb : sample < 2 ^ 63) (song : Option (Song σ)) (hsongEq : song = currentSong sample full.songs)
    (hsong : sample = 0 ∨ lo ≤ songStart song) :
    (info rate now act).1 = ideal rate now full ∧
      Sim rate now (max lo (songStart song)) full (info rate now act).2 := by
  have hfind : act.chunks.find? (fun c => decide (now ≤ c.endTime rate)) =
      full.chunks.find? (fun c => decide (now ≤ c.endTime rate)) := by
    refine find_sublist h.chunksSub ?_ (nodup_of_lt h.chunksSorted)
    intro c hc hn
    have := h.chunksGone c hc hn
    simp; omega
  have hs : sampleAt rate now (removeOldChunks rate now act.chunks) = sample := by
    rw [sampleAt_find, hfind, hS, idealSample]
  obtain ⟨n, rfl⟩ := Int.eq_ofNat_of_zero_le hpos
  have hn63 : n < 2 ^ 63 := by omega
  have hstart : n ≠ 0 → songStart song < n := by
    intro hn0
    rw [hsongEq]
    cases hc : currentSong (n : Int) full.songs with
    | none => simp [songStart]; omega
    | some x =>
      simp only [songStart]
      have := List.find?_some hc
      simpa using this
  -- pauses
  have hpa : ∀ ps, (ps = full.pauses ∨ ∃ P r Q, full.pauses = P ++ r :: Q ∧ ps.Sublist full.pauses ∧ (r :: Q).Sublist ps ∧
      r.playing = true ∧ r.toggleIndex < max lo (songStart song)) →
      pausesInCurrentSong (n : Int) (songStart song) ps = pausesInCurrentSong (n : Int) (songStart song) full.pauses := by
    intro ps hps
    by_cases hn0 : n = 0
    · subst hn0
      rw [show ((0 : Nat) : Int) = 0 from rfl, pauses_at_zero, pauses_at_zero]
    · rcases hps with rfl | ⟨P, r, Q, e, h1, h2, h3, h4⟩
      · rfl
      · rw [e] at h1
        have hso := h.pausesSorted
        rw [e] at hso
        obtain ⟨P', rfl⟩ := sub_form hso h1 h2
        have hlo : lo ≤ songStart song := by rcases hsong with hh | hh; omega; exact hh
        have hr1 : r.toggleIndex < songStart song := by omega
        have hr2 : r.toggleIndex < n := by have := hstart hn0; omega
        rw [e, drop_before_resume n _ hn63 P Q r (chrono_of_lt hso) h3 (by omega) hr2,
          drop_before_resume n _ hn63 P' Q r (List.Pairwise.sublist h1 (chrono_of_lt hso)) h3 (by omega) hr2]
  have hact : act.pauses = full.pauses ∨ ∃ P r Q, full.pauses = P ++ r :: Q ∧ act.pauses.Sublist full.pauses ∧
      (r :: Q).Sublist act.pauses ∧ r.playing = true ∧ r.toggleIndex < max lo (songStart song) := by
    rcases h.pauses with hh | ⟨P, r, Q, h1, h2, h3, h4, h5⟩
    · exact .inl hh
    · exact .inr ⟨P, r, Q, h1, h2, h3, h4, by omega⟩
  have hpr : removeOldPauses (songStart song) act.pauses = full.pauses ∨
      ∃ P r Q, full.pauses = P ++ r :: Q ∧ (removeOldPauses (songStart song) act.pauses).Sublist full.pauses ∧
      (r :: Q).Sublist (removeOldPauses (songStart song) act.pauses) ∧ r.playing = true ∧
      r.toggleIndex < max lo (songStart song) := by
    rcases removeOldPauses_spec (songStart song) act.pauses with hk | ⟨P, r, Q, e, hk, hr, hrs⟩
    · rw [hk]; exact hact
    · rw [hk]
      right
      -- act.pauses is a sublist of full.pauses and contains r; cut full at r
      have hsubAll : act.pauses.Sublist full.pauses := by
        rcases h.pauses with hh | ⟨_, _, _, _, h2, _⟩
        · rw [hh]; exact List.Sublist.refl _
        · exact h2
      have hrmem : r ∈ full.pauses := hsubAll.subset (by rw [e]; simp)
      obtain ⟨F1, F2, ef⟩ := List.append_of_mem hrmem
      have hso := h.pausesSorted
      rw [ef] at hso
      rcases h.pauses with hh | ⟨P0, r0, Q0, g1, g2, g3, g4, g5⟩
      · -- nothing was cut before
        refine ⟨P, r, Q, by rw [← hh, e], ?_, List.Sublist.refl _, hr, by omega⟩
        rw [← hh, e]; exact List.sublist_append_right _ _
      · -- cut before: act.pauses = P' ++ r0 :: Q0
        have hso0 := h.pausesSorted
        rw [g1] at hso0 g2
        obtain ⟨P', eP⟩ := sub_form hso0 g2 g3
        -- r is in P' or r0 :: Q0
        rw [eP] at e
        rcases List.append_eq_append_iff.1 e with ⟨c, e1, e2⟩ | ⟨c, e1, e2⟩
        · -- P = P' ++ c, r0 :: Q0 = c ++ r :: Q
          refine ⟨P0 ++ c, r, Q, by rw [g1, e2]; simp, ?_, List.Sublist.refl _, hr, by omega⟩
          rw [g1, e2]
          exact (List.sublist_append_right _ _).trans (List.sublist_append_right _ _)
        · -- P' = P ++ c, r :: Q = c ++ r0 :: Q0: an earlier cut point stays valid
          refine ⟨P0, r0, Q0, g1, ?_, ?_, g4, by omega⟩
          · rw [g1]
            refine List.Sublist.trans ?_ g2
            rw [eP, e]; exact List.sublist_append_right _ _
          · rw [e2]; exact List.sublist_append_right _ _
  have hp1 := hpa _ hpr
  refine ⟨?_, ?_⟩
  · simp only [info, hs, h.songs, ← hsongEq, hp1, ideal, ← hS, idealAt]
  · refine ⟨?_, ?_, ?_, h.chunksSorted, h.pausesSorted, ?_⟩
    · simp [info, h.songs]
    · simp only [info]
      refine List.Sublist.trans ?_ h.chunksSub
      generalize act.chunks = cs
      induction cs with
      | nil => simp [removeOldChunks]
      | cons c cs ih =>
        simp only [removeOldChunks]
        split
        · exact List.Sublist.refl _
        · exact ih.trans (List.sublist_cons_self _ _)
    · intro c hc hn
      by_cases hca : c ∈ act.chunks
      · simp only [info] at hn
        generalize act.chunks = cs at hca hn
        induction cs with
        | nil => simp at hca
        | cons d cs ih =>
          simp only [removeOldChunks] at hn
          split at hn
          · exact absurd hca hn
          · rename_i hd
            rcases List.mem_cons.1 hca with rfl | hca
            · omega
            · exact ih hca hn
      · have := h.chunksGone c hc hca
        omega
    · simp only [info, hs, h.songs, ← hsongEq]
      exact hpr

/-! ### Whole histories -/

/-- What can happen to an infoer. -/
inductive Ev (σ : Type)
  | song (m : Song σ)
  | chunk (m : Chunk)
  | pause (m : Toggle)
  | query (now : Int)

/-- The program: handlers and `Info`, with what the queries displayed. -/
inductive Run {σ : Type} (rate : Nat) : State σ → List (Ev σ) → List (PlaybackInfo σ) → State σ → Prop
  | nil (s) : Run rate s [] [] s
  | song {s m s1 evs outs s2} (h : HandleSong s m s1) (r : Run rate s1 evs outs s2) : Run rate s (.song m :: evs) outs s2
  | chunk {s m s1 evs outs s2} (h : HandleChunk s m s1) (r : Run rate s1 evs outs s2) :
      Run rate s (.chunk m :: evs) outs s2
  | pause {s m s1 evs outs s2} (h : HandlePause s m s1) (r : Run rate s1 evs outs s2) :
      Run rate s (.pause m :: evs) outs s2
  | query {s now evs outs s2} (r : Run rate (info rate now s).2 evs outs s2) :
      Run rate s (.query now :: evs) ((info rate now s).1 :: outs) s2

/-- Specification: an infoer that keeps everything. -/
inductive KeepRun {σ : Type} (rate : Nat) : State σ → List (Ev σ) → List (PlaybackInfo σ) → State σ → Prop
  | nil (s) : KeepRun rate s [] [] s
  | song {s m s1 evs outs s2} (h : HandleSong s m s1) (r : KeepRun rate s1 evs outs s2) :
      KeepRun rate s (.song m :: evs) outs s2
  | chunk {s m s1 evs outs s2} (h : HandleChunk s m s1) (r : KeepRun rate s1 evs outs s2) :
      KeepRun rate s (.chunk m :: evs) outs s2
  | pause {s m s1 evs outs s2} (h : HandlePause s m s1) (r : KeepRun rate s1 evs outs s2) :
      KeepRun rate s (.pause m :: evs) outs s2
  | query {s now evs outs s2} (r : KeepRun rate s evs outs s2) :
      KeepRun rate s (.query now :: evs) (ideal rate now s :: outs) s2

def songsOf {σ : Type} (evs : List (Ev σ)) : List (Song σ) := evs.filterMap (fun | .song m => some m | _ => none)
def chunksOf {σ : Type} (evs : List (Ev σ)) : List Chunk := evs.filterMap (fun | .chunk m => some m | _ => none)
def pausesOf {σ : Type} (evs : List (Ev σ)) : List Toggle := evs.filterMap (fun | .pause m => some m | _ => none)
def queriesOf {σ : Type} (evs : List (Ev σ)) : List Int := evs.filterMap (fun | .query t => some t | _ => none)

theorem strict_sublist {α : Type} {key : α → Nat} : ∀ {a b : List α}, a.Pairwise (fun x y => key x < key y) →
    b.Pairwise (fun x y => key x < key y) → (∀ x ∈ a, x ∈ b) → a.Sublist b
  | [], b, _, _, _ => List.nil_sublist b
  | x :: a, [], _, _, h => absurd (h x (by simp)) (by simp)
  | x :: a, y :: b, ha, hb, h => by
    rw [List.pairwise_cons] at ha hb
    by_cases hxy : x = y
    · subst hxy
      refine List.Sublist.cons_cons x (strict_sublist ha.2 hb.2 ?_)
      intro z hz
      rcases List.mem_cons.1 (h z (by simp [hz])) with rfl | h'
      · exact absurd (ha.1 z hz) (by omega)
      · exact h'
    · refine List.Sublist.cons y (strict_sublist (List.pairwise_cons.2 ha) hb.2 ?_)
      intro z hz
      rcases List.mem_cons.1 (h z hz) with rfl | h'
      · rcases List.mem_cons.1 hz with rfl | hz
        · exact absurd rfl hxy
        · have h1 := ha.1 z hz
          rcases List.mem_cons.1 (h x (by simp)) with h2 | h2
          · exact absurd h2 hxy
          · have := hb.1 x h2; omega
      · exact h'

theorem strict_eq {α : Type} {key : α → Nat} {a b : List α} (ha : a.Pairwise (fun x y => key x < key y))
    (hb : b.Pairwise (fun x y => key x < key y)) (h : ∀ x, x ∈ a ↔ x ∈ b) : a = b :=
  (strict_sublist ha hb (fun x hx => (h x).1 hx)).eq_of_length_le
    (strict_sublist hb ha (fun x hx => (h x).2 hx)).length_le

/-- Sorting a list with distinct keys gives a strictly sorted list. -/
theorem sorted_strict {α : Type} {key : α → Nat} {l0 l : List α} (h : SortedBy key l0 l)
    (hd : l0.Pairwise (fun x y => key x ≠ key y)) : l.Pairwise (fun x y => key x < key y) := by
  have hd' : l.Pairwise (fun x y => key x ≠ key y) := (h.1.pairwise_iff (fun hxy => Ne.symm hxy)).2 hd
  have := h.2.and hd'
  exact this.imp (fun ⟨h1, h2⟩ => by omega)

/-- A later query in the same or a later song. -/
theorem start_le_current {σ : Type} {songs : List (Song σ)} (hs : songs.Pairwise (fun a b => a.startIndex < b.startIndex))
    {x : Song σ} (hx : x ∈ songs) {sample : Int} (hlt : (x.startIndex : Int) < sample) :
    x.startIndex ≤ songStart (currentSong sample songs) := by
  simp only [currentSong]
  have hs' : songs.reverse.Pairwise (fun a b => b.startIndex < a.startIndex) := by
    rw [List.pairwise_reverse]; exact hs
  have hx' : x ∈ songs.reverse := by simpa using hx
  generalize songs.reverse = l at *
  clear hs hx
  induction l with
  | nil => simp at hx'
  | cons y l ih =>
    rw [List.pairwise_cons] at hs'
    rw [List.find?_cons]
    rcases List.mem_cons.1 hx' with rfl | hx'
    · simp [hlt, songStart]
    · by_cases hy : (y.startIndex : Int) < sample
      · simp [hy, songStart]; exact Nat.le_of_lt (hs'.1 x hx')
      · simp only [hy, decide_false]; exact ih hs'.2 hx'

theorem C44_run {σ : Type} (rate : Nat) (evs : List (Ev σ)) :
    ∀ (t : Int) (lo : Nat) (last : Int) (full act full' act' : State σ) (outs outs' : List (PlaybackInfo σ)),
      Sim rate t lo full act →
      full.songs.Pairwise (fun a b => a.startIndex < b.startIndex) →
      (lo = 0 ∨ ∃ x ∈ full.songs, x.startIndex = lo ∧ (lo : Int) < last) →
      (full.songs ++ songsOf evs).Pairwise (fun a b => a.startIndex ≠ b.startIndex) →
      (full.chunks ++ chunksOf evs).Pairwise (fun a b => a.startIndex ≠ b.startIndex) →
      (full.pauses ++ pausesOf evs).Pairwise (fun a b => a.toggleIndex ≠ b.toggleIndex) →
      (t :: queriesOf evs).Pairwise (· ≤ ·) →
      Run rate act evs outs act' → KeepRun rate full evs outs' full' →
      (∀ o ∈ outs', 0 ≤ o.sample ∧ o.sample < 2 ^ 63) →
      (last :: (outs'.map (·.sample)).filter (· ≠ 0)).Pairwise (· ≤ ·) →
      outs = outs' := by
  induction evs with
  | nil =>
    intro t lo last full act full' act' outs outs' _ _ _ _ _ _ _ hr hk _ _
    cases hr; cases hk; rfl
  | cons ev evs ih =>
    intro t lo last full act full' act' outs outs' hsim hss hlo hds hdc hdp hq hr hk hb hfw
    cases ev with
    | song m =>
      cases hr with | song hr0 hr =>
      cases hk with | song hk0 hk =>
      rename_i s1 s2
      obtain ⟨a1, a2, a3⟩ := hr0
      obtain ⟨b1, b2, b3⟩ := hk0
      have e : songsOf (Ev.song m :: evs) = m :: songsOf evs := rfl
      rw [e, ← List.singleton_append, ← List.append_assoc] at hds
      have hds' := (List.pairwise_append.1 hds).1
      have hstr2 := sorted_strict b1 hds'
      rw [hsim.songs] at a1
      have hstr1 := sorted_strict a1 hds'
      refine ih t lo last _ _ _ _ _ _ ⟨?_, ?_, ?_, ?_, ?_, ?_⟩ hstr2 ?_ ?_ ?_ ?_ hq hr hk hb hfw
      · refine strict_eq hstr1 hstr2 (fun x => ?_)
        rw [a1.1.mem_iff, b1.1.mem_iff]
      · rw [a2, b2]; exact hsim.chunksSub
      · rw [a2, b2]; exact hsim.chunksGone
      · rw [b2]; exact hsim.chunksSorted
      · rw [b3]; exact hsim.pausesSorted
      · rw [a3, b3]; exact hsim.pauses
      · rcases hlo with h | ⟨x, hx, h1, h2⟩
        · exact .inl h
        · exact .inr ⟨x, b1.1.symm.subset (by simp [hx]), h1, h2⟩
      · exact ((b1.1.append_right _).pairwise_iff (fun h => Ne.symm h)).2 hds
      · rw [b2]; exact hdc
      · rw [b3]; exact hdp
    | chunk m =>
      cases hr with | chunk hr0 hr =>
      cases hk with | chunk hk0 hk =>
      obtain ⟨a1, a2, a3⟩ := hr0
      obtain ⟨b1, b2, b3⟩ := hk0
      have e : chunksOf (Ev.chunk (σ := σ) m :: evs) = m :: chunksOf evs := rfl
      rw [e, ← List.singleton_append, ← List.append_assoc] at hdc
      have hdc' := (List.pairwise_append.1 hdc).1
      have hstr2 := sorted_strict b1 hdc'
      have hstr1 := sorted_strict a1 (hdc'.sublist (List.Sublist.append_right hsim.chunksSub _))
      refine ih t lo last _ _ _ _ _ _ ⟨?_, ?_, ?_, hstr2, ?_, ?_⟩ ?_ ?_ ?_ ?_ ?_ hq hr hk hb hfw
      · rw [a2, b2]; exact hsim.songs
      · refine strict_sublist hstr1 hstr2 (fun x hx => ?_)
        rw [a1.1.mem_iff, List.mem_append] at hx
        rw [b1.1.mem_iff, List.mem_append]
        exact hx.imp (fun h => hsim.chunksSub.subset h) id
      · intro c hc hn
        rw [b1.1.mem_iff, List.mem_append] at hc
        rw [a1.1.mem_iff, List.mem_append] at hn
        rcases hc with hc | hc
        · exact hsim.chunksGone c hc (fun h => hn (.inl h))
        · exact absurd (.inr hc) hn
      · rw [b3]; exact hsim.pausesSorted
      · rw [a3, b3]; exact hsim.pauses
      · rw [b2]; exact hss
      · rw [b2]; exact hlo
      · rw [b2]; exact hds
      · exact ((b1.1.append_right _).pairwise_iff (fun h => Ne.symm h)).2 hdc
      · rw [b3]; exact hdp
    | pause m =>
      cases hr with | pause hr0 hr =>
      cases hk with | pause hk0 hk =>
      rename_i s1 s2
      obtain ⟨a1, a2, a3⟩ := hr0
      obtain ⟨b1, b2, b3⟩ := hk0
      have e : pausesOf (Ev.pause (σ := σ) m :: evs) = m :: pausesOf evs := rfl
      rw [e, ← List.singleton_append, ← List.append_assoc] at hdp
      have hdp' := (List.pairwise_append.1 hdp).1
      have hstr2 := sorted_strict b1 hdp'
      refine ih t lo last _ _ _ _ _ _ ⟨?_, ?_, ?_, ?_, hstr2, ?_⟩ ?_ ?_ ?_ ?_ ?_ hq hr hk hb hfw
      · rw [a2, b2]; exact hsim.songs
      · rw [a3, b3]; exact hsim.chunksSub
      · rw [a3, b3]; exact hsim.chunksGone
      · rw [b3]; exact hsim.chunksSorted
      · rcases hsim.pauses with hh | ⟨P, r, Q, g1, g2, g3, g4, g5⟩
        · left
          rw [hh] at a1
          refine strict_eq (sorted_strict a1 hdp') hstr2 (fun x => ?_)
          rw [a1.1.mem_iff, b1.1.mem_iff]
        · right
          have hstr1 := sorted_strict a1 (hdp'.sublist (List.Sublist.append_right g2 _))
          have hr2 : r ∈ s2.pauses := b1.1.symm.subset (by rw [g1]; simp)
          obtain ⟨P', Q', e2⟩ := List.append_of_mem hr2
          refine ⟨P', r, Q', e2, ?_, ?_, g4, g5⟩
          · refine strict_sublist hstr1 hstr2 (fun x hx => ?_)
            rw [a1.1.mem_iff, List.mem_append] at hx
            rw [b1.1.mem_iff, List.mem_append]
            exact hx.imp (fun h => g2.subset h) id
          · rw [e2] at hstr2
            have hsuf := (List.pairwise_append.1 hstr2).2.1
            refine strict_sublist hsuf hstr1 (fun x hx => ?_)
            have hxr : r.toggleIndex ≤ x.toggleIndex := by
              rcases List.mem_cons.1 hx with rfl | h'
              · exact Nat.le_refl _
              · exact Nat.le_of_lt ((List.pairwise_cons.1 hsuf).1 x h')
            have hx2 : x ∈ full.pauses ++ [m] := b1.1.subset (by rw [e2]; exact List.mem_append_right _ hx)
            rw [a1.1.mem_iff, List.mem_append]
            rcases List.mem_append.1 hx2 with h' | h'
            · left
              rw [g1] at h'
              have hso := hsim.pausesSorted
              rw [g1] at hso
              rcases List.mem_append.1 h' with h' | h'
              · exact absurd ((List.pairwise_append.1 hso).2.2 x h' r (by simp)) (by omega)
              · exact g3.subset h'
            · exact .inr h'
      · rw [b2]; exact hss
      · rw [b2]; exact hlo
      · rw [b2]; exact hds
      · rw [b3]; exact hdc
      · exact ((b1.1.append_right _).pairwise_iff (fun h => Ne.symm h)).2 hdp
    | query now =>
      cases hr with | query hr =>
      cases hk with | query hk =>
      rename_i outs outs'
      have e : queriesOf (Ev.query (σ := σ) now :: evs) = now :: queriesOf evs := rfl
      rw [e] at hq
      have hq1 := (List.pairwise_cons.1 hq).1 now (by simp)
      have hq2 := (List.pairwise_cons.1 hq).2
      have hisample : (ideal rate now full).sample = idealSample rate now full.chunks := by
        simp only [ideal, idealAt]; split <;> rfl
      have hb0 := hb _ (List.mem_cons_self ..)
      rw [hisample] at hb0
      rw [List.map_cons, List.filter_cons, hisample] at hfw
      generalize hsv : idealSample rate now full.chunks = sample at *
      have hsong : sample = 0 ∨ lo ≤ songStart (currentSong sample full.songs) := by
        by_cases h0 : sample = 0
        · exact .inl h0
        · right
          simp only [h0, ne_eq, not_false_eq_true, decide_true, if_true] at hfw
          have hle := (List.pairwise_cons.1 hfw).1 sample (by simp)
          rcases hlo with h | ⟨x, hx, h1, h2⟩
          · omega
          · rw [← h1]
            exact start_le_current hss hx (by omega)
      obtain ⟨q1, q2⟩ := C44_query rate t now lo full act hsim hq1 sample hsv.symm hb0.1 hb0.2 _ rfl hsong
      rw [q1]
      congr 1
      have hnewlo : max lo (songStart (currentSong sample full.songs)) = 0 ∨ ∃ x ∈ full.songs,
          x.startIndex = max lo (songStart (currentSong sample full.songs)) ∧
          ((max lo (songStart (currentSong sample full.songs)) : Nat) : Int) < (if sample = 0 then last else sample) := by
        by_cases h0 : sample = 0
        · have hz : songStart (currentSong sample full.songs) = 0 := by
            cases hc : currentSong sample full.songs with
            | none => rfl
            | some y =>
              have := List.find?_some hc
              simp at this
              omega
          rw [hz, if_pos h0, Nat.max_zero]; exact hlo
        · rw [if_neg h0]
          have hlos : lo ≤ songStart (currentSong sample full.songs) := by
            rcases hsong with h | h
            · exact absurd h h0
            · exact h
          rw [Nat.max_eq_right hlos]
          cases hc : currentSong sample full.songs with
          | none => exact .inl rfl
          | some y =>
            right
            have h1 := List.find?_some hc
            have h2 := List.mem_of_find?_eq_some hc
            exact ⟨y, by simpa using h2, rfl, by simpa [songStart] using h1⟩
      refine ih now _ _ full _ full' act' _ _ q2 hss hnewlo hds hdc hdp hq2 hr hk
        (fun o ho => hb o (List.mem_cons_of_mem _ ho)) ?_
      by_cases h0 : sample = 0
      · rw [if_pos h0]
        simpa [h0] using hfw
      · rw [if_neg h0]
        simp only [h0, ne_eq, not_false_eq_true, decide_true, if_true] at hfw
        exact (List.pairwise_cons.1 hfw).2

/-- C44. Over any history of arrivals (in any order) and queries, everything the infoer displays equals what an infoer
that never drops anything would display. Assumed: indices are distinct per kind, the clock does not run backwards, and
the positions (as the never-dropping infoer shows them; 0 when there is no chunk) do not run backwards. -/
theorem C44_pruning_invisible_partial {σ : Type} (rate : Nat) (evs : List (Ev σ)) (act' full' : State σ)
    (outs outs' : List (PlaybackInfo σ))
    (hds : (songsOf evs).Pairwise (fun a b => a.startIndex ≠ b.startIndex))
    (hdc : (chunksOf evs).Pairwise (fun a b => a.startIndex ≠ b.startIndex))
    (hdp : (pausesOf evs).Pairwise (fun a b => a.toggleIndex ≠ b.toggleIndex))
    (hq : (queriesOf evs).Pairwise (· ≤ ·))
    (hr : Run rate ⟨[], [], []⟩ evs outs act') (hk : KeepRun rate ⟨[], [], []⟩ evs outs' full')
    (hb : ∀ o ∈ outs', 0 ≤ o.sample ∧ o.sample < 2 ^ 63)
    (hfw : ((outs'.map (·.sample)).filter (· ≠ 0)).Pairwise (· ≤ ·)) :
    outs = outs' := by
  have hmin : ∃ t0 : Int, ∀ t ∈ queriesOf evs, t0 ≤ t := by
    generalize queriesOf evs = l
    induction l with
    | nil => exact ⟨0, by simp⟩
    | cons a l ih =>
      obtain ⟨t0, h⟩ := ih
      refine ⟨min a t0, fun t ht => ?_⟩
      rcases List.mem_cons.1 ht with rfl | ht
      · omega
      · have := h t ht; omega
  obtain ⟨t0, ht0⟩ := hmin
  refine C44_run rate evs t0 0 0 ⟨[], [], []⟩ ⟨[], [], []⟩ full' act' outs outs'
    ⟨rfl, List.Sublist.refl _, by simp, List.Pairwise.nil, List.Pairwise.nil, .inl rfl⟩ List.Pairwise.nil (.inl rfl)
    (by simpa using hds) (by simpa using hdc) (by simpa using hdp) (List.pairwise_cons.2 ⟨ht0, hq⟩) hr hk hb
    (List.pairwise_cons.2 ⟨?_, hfw⟩)
  intro x hx
  obtain ⟨hx, _⟩ := List.mem_filter.1 hx
  obtain ⟨o, ho, rfl⟩ := List.mem_map.1 hx
  exact (hb o ho).1

/-- Non-vacuity: a pause and a resume before the second song are dropped at the first query; a late chunk arrives before
the second query. -/
example : ∃ (s s' : State Unit) (o1 o2 : PlaybackInfo Unit),
    Run 1000 ⟨[], [], []⟩ [.song ⟨(), 10, 90⟩, .song ⟨(), 100, 900⟩, .chunk ⟨0, 0, 200⟩, .pause ⟨false, 20⟩,
      .pause ⟨true, 30⟩, .query 150000000, .chunk ⟨200000000, 200, 200⟩, .query 260000000] [o1, o2] s ∧
    KeepRun 1000 ⟨[], [], []⟩ [.song ⟨(), 10, 90⟩, .song ⟨(), 100, 900⟩, .chunk ⟨0, 0, 200⟩, .pause ⟨false, 20⟩,
      .pause ⟨true, 30⟩, .query 150000000, .chunk ⟨200000000, 200, 200⟩, .query 260000000] [o1, o2] s' ∧
    s.pauses = [⟨true, 30⟩] ∧ s'.pauses = [⟨false, 20⟩, ⟨true, 30⟩] ∧ o1.sample = 150 ∧ o2.sample = 260 := by
  refine ⟨_, _, _, _, .song (s1 := ⟨[⟨(), 10, 90⟩], [], []⟩) ⟨⟨.refl _, by simp⟩, rfl, rfl⟩ <|
    .song (s1 := ⟨[⟨(), 10, 90⟩, ⟨(), 100, 900⟩], [], []⟩) ⟨⟨.refl _, by simp⟩, rfl, rfl⟩ <|
    .chunk (s1 := ⟨[⟨(), 10, 90⟩, ⟨(), 100, 900⟩], [⟨0, 0, 200⟩], []⟩) ⟨⟨.refl _, by simp⟩, rfl, rfl⟩ <|
    .pause (s1 := ⟨[⟨(), 10, 90⟩, ⟨(), 100, 900⟩], [⟨0, 0, 200⟩], [⟨false, 20⟩]⟩) ⟨⟨.refl _, by simp⟩, rfl, rfl⟩ <|
    .pause (s1 := ⟨[⟨(), 10, 90⟩, ⟨(), 100, 900⟩], [⟨0, 0, 200⟩], [⟨false, 20⟩, ⟨true, 30⟩]⟩)
      ⟨⟨.refl _, by simp⟩, rfl, rfl⟩ <|
    .query <| .chunk (s1 := ⟨[⟨(), 10, 90⟩, ⟨(), 100, 900⟩], [⟨0, 0, 200⟩, ⟨200000000, 200, 200⟩], [⟨true, 30⟩]⟩)
      ⟨⟨.refl _, by simp⟩, rfl, rfl⟩ <| .query <| .nil _,
    .song (s1 := ⟨[⟨(), 10, 90⟩], [], []⟩) ⟨⟨.refl _, by simp⟩, rfl, rfl⟩ <|
    .song (s1 := ⟨[⟨(), 10, 90⟩, ⟨(), 100, 900⟩], [], []⟩) ⟨⟨.refl _, by simp⟩, rfl, rfl⟩ <|
    .chunk (s1 := ⟨[⟨(), 10, 90⟩, ⟨(), 100, 900⟩], [⟨0, 0, 200⟩], []⟩) ⟨⟨.refl _, by simp⟩, rfl, rfl⟩ <|
    .pause (s1 := ⟨[⟨(), 10, 90⟩, ⟨(), 100, 900⟩], [⟨0, 0, 200⟩], [⟨false, 20⟩]⟩) ⟨⟨.refl _, by simp⟩, rfl, rfl⟩ <|
    .pause (s1 := ⟨[⟨(), 10, 90⟩, ⟨(), 100, 900⟩], [⟨0, 0, 200⟩], [⟨false, 20⟩, ⟨true, 30⟩]⟩)
      ⟨⟨.refl _, by simp⟩, rfl, rfl⟩ <|
    .query <| .chunk (s1 := ⟨[⟨(), 10, 90⟩, ⟨(), 100, 900⟩], [⟨0, 0, 200⟩, ⟨200000000, 200, 200⟩],
      [⟨false, 20⟩, ⟨true, 30⟩]⟩) ⟨⟨.refl _, by simp⟩, rfl, rfl⟩ <| .query <| .nil _, ?_⟩
  decide

/-- C44 needs positions that do not run backwards: after showing a later song, dropped toggles are missed when an
earlier position is shown again (the server was restarted: new chunks have smaller indices). -/
theorem C44_backwards_visible :
    let s : State Unit := ⟨[⟨(), 10, 90⟩, ⟨(), 100, 900⟩], [⟨0, 100, 1000⟩], [⟨false, 20⟩, ⟨true, 30⟩]⟩
    let s1 := (info 1000 50000000 s).2
    let back : State Unit → State Unit := fun x => { x with chunks := [⟨0, 0, 50⟩, ⟨0, 100, 1000⟩] }
    HandleChunk s ⟨0, 0, 50⟩ (back s) ∧ HandleChunk s1 ⟨0, 0, 50⟩ (back s1) ∧
      (info 1000 50000000 (back s)).1.timeInSong = 30000000 ∧ (info 1000 50000000 (back s1)).1.timeInSong = 40000000 := by
  refine ⟨⟨⟨List.Perm.swap _ _ _, by simp⟩, rfl, rfl⟩, ⟨⟨?_, by simp⟩, rfl, rfl⟩, by decide, by decide⟩
  have : (info 1000 50000000 (⟨[⟨(), 10, 90⟩, ⟨(), 100, 900⟩], [⟨0, 100, 1000⟩], [⟨false, 20⟩, ⟨true, 30⟩]⟩ : State Unit)).2.chunks
    = [⟨0, 100, 1000⟩] := by decide
  rw [this]
  exact List.Perm.swap _ _ _

/-- The conversion of a (possibly negative) sample number is Go's: the 64 bits are kept. -/
theorem u64_bits (x : Int) : u64 x = (BitVec.ofInt 64 x).toNat := by
  simp [u64, BitVec.toNat_ofInt]

end MS.Infoer
