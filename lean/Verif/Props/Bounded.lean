import Verif.Props.Infoer
import Verif.Props.ServerState
import Verif.Props.InfoRace
/-!
# Property C101: what the programs keep does not grow with the time they run
-/
set_option linter.unusedSimpArgs false
set_option linter.unusedVariables false
namespace MS.Bounded
open MS.Infoer

variable {σ : Type}

/-! ## Specification -/

/-- Pauses and resumes in turn (see C10). -/
def InTurn : List Toggle → Prop
  | a :: b :: ts => a.playing ≠ b.playing ∧ InTurn (b :: ts)
  | _ => True

/-- In the order of their indices. -/
def Ascending (ts : List Toggle) : Prop := ts.Pairwise (fun a b => a.toggleIndex < b.toggleIndex)

/-! ## Chunks -/

/-- After a display no chunk is stored that ended before it, if later chunks end later. -/
theorem removeOld_all (rate : Nat) (now : Int) (cs : List Chunk)
    (hm : cs.Pairwise (fun a b => a.endTime rate ≤ b.endTime rate)) :
    ∀ c ∈ removeOldChunks rate now cs, now ≤ c.endTime rate := by
  induction cs with
  | nil => simp [removeOldChunks]
  | cons d cs ih =>
    rw [List.pairwise_cons] at hm
    simp only [removeOldChunks]
    split
    · rename_i h
      intro c hc
      rcases List.mem_cons.1 hc with rfl | hc
      · exact h
      · have := hm.1 c hc; omega
    · exact ih hm.2

/-- The last display of a run. -/
theorem run_split {rate : Nat} {now : Int} {s0 s : State σ} {evs : List (Ev σ)} {outs : List (PlaybackInfo σ)} :
    Run rate s0 (evs ++ [.query now]) outs s →
      ∃ outs' s1, Run rate s0 evs outs' s1 ∧ s = (info rate now s1).2 ∧ outs = outs' ++ [(info rate now s1).1] := by
  induction evs generalizing s0 outs with
  | nil =>
    intro h
    cases h with | query r =>
    cases r
    exact ⟨[], s0, .nil _, rfl, rfl⟩
  | cons e evs ih =>
    intro h
    cases e with
    | song m => cases h with | song h r => obtain ⟨o, s1, h1, h2⟩ := ih r; exact ⟨o, s1, .song h h1, h2⟩
    | chunk m => cases h with | chunk h r => obtain ⟨o, s1, h1, h2⟩ := ih r; exact ⟨o, s1, .chunk h h1, h2⟩
    | pause m => cases h with | pause h r => obtain ⟨o, s1, h1, h2⟩ := ih r; exact ⟨o, s1, .pause h h1, h2⟩
    | query t =>
      cases h with | query r =>
      obtain ⟨o, s1, h1, h2, h3⟩ := ih r
      exact ⟨_, s1, .query h1, h2, by rw [h3]; rfl⟩

theorem info_song (rate : Nat) (now : Int) (s : State σ) :
    (info rate now s).1.song = currentSong (sampleAt rate now (removeOldChunks rate now s.chunks)) s.songs := by
  simp only [info]; split <;> rfl

theorem pairwise_two {l : List Toggle} (h : Ascending l) {a b : Toggle} (ha : a ∈ l) (hb : b ∈ l) (hab : a ≠ b) :
    a.toggleIndex < b.toggleIndex ∨ b.toggleIndex < a.toggleIndex := by
  induction l with
  | nil => simp at ha
  | cons c l ih =>
    have h' := List.pairwise_cons.1 h
    rcases List.mem_cons.1 ha with ea | ha' <;> rcases List.mem_cons.1 hb with eb | hb'
    · exact absurd (ea.trans eb.symm) hab
    · rw [ea]; exact .inl (h'.1 b hb')
    · rw [eb]; exact .inr (h'.1 a ha')
    · exact ih h'.2 ha' hb'

theorem applyAll_append (h1 h2 : List (Server.Op σ)) : ∀ ss, Server.applyAll ss (h1 ++ h2) =
    (Server.applyAll ss h1).bind (fun ss' => Server.applyAll ss' h2) := by
  induction h1 with
  | nil => intro ss; rfl
  | cons o h1 ih =>
    intro ss
    simp only [List.cons_append, Server.applyAll]
    cases Server.apply ss o with
    | panic => rfl
    | ok s => exact ih s

/-- What is stored came from what was received. -/
theorem run_stored {rate : Nat} {s s' : State σ} {evs : List (Ev σ)} {outs : List (PlaybackInfo σ)}
    (hr : Run rate s evs outs s') : ∀ full : List Chunk, s.chunks.Pairwise (fun a b => a.startIndex < b.startIndex) →
      (∀ c ∈ s.chunks, c ∈ full) → (full ++ chunksOf evs).Pairwise (fun a b => a.startIndex ≠ b.startIndex) →
      s'.chunks.Pairwise (fun a b => a.startIndex < b.startIndex) ∧ ∀ c ∈ s'.chunks, c ∈ full ++ chunksOf evs := by
  induction hr with
  | nil s => intro full h1 h2 _; exact ⟨h1, by simpa [chunksOf] using h2⟩
  | song h r ih => intro full h1 h2 h3; obtain ⟨_, e, _⟩ := h; rw [e] at ih; exact ih full h1 h2 h3
  | pause h r ih => intro full h1 h2 h3; obtain ⟨_, _, e⟩ := h; rw [e] at ih; exact ih full h1 h2 h3
  | @chunk s m s1 evs outs s2 h r ih =>
    intro full h1 h2 h3
    obtain ⟨hs, _, _⟩ := h
    have e : chunksOf (Ev.chunk (σ := σ) m :: evs) = m :: chunksOf evs := rfl
    rw [e, show full ++ m :: chunksOf evs = (full ++ [m]) ++ chunksOf evs by simp] at h3
    rw [e, show full ++ m :: chunksOf evs = (full ++ [m]) ++ chunksOf evs by simp]
    have hd : (s.chunks ++ [m]).Pairwise (fun a b => a.startIndex ≠ b.startIndex) := by
      rw [List.pairwise_append]
      refine ⟨h1.imp (fun h => Nat.ne_of_lt h), by simp, ?_⟩
      intro a ha b hb
      exact (List.pairwise_append.1 (List.pairwise_append.1 h3).1).2.2 a (h2 a ha) b hb
    refine ih (full ++ [m]) (sorted_strict hs hd) ?_ h3
    intro c hc
    rcases List.mem_append.1 (hs.1.subset hc) with h | h
    · exact List.mem_append_left _ (h2 c h)
    · exact List.mem_append_right _ h
  | @query s now evs outs s2 r ih =>
    intro full h1 h2 h3
    have hsub : (info rate now s).2.chunks.Sublist s.chunks := by
      simp only [info]; exact InfoRace.removeOldChunks_sublist _ _ _
    exact ih full (h1.sublist hsub) (fun c hc => h2 c (hsub.subset hc)) h3

/-- A strictly sorted list of chunks of the schedule with numbers in `[a, b]` has at most `b + 1 - a` entries. -/
theorem count_scheduled (size : Nat) (hsz : 0 < size) (start time : Int) : ∀ (cs : List Chunk) (a b : Int),
    cs.Pairwise (fun x y => x.startIndex < y.startIndex) →
    (∀ c ∈ cs, ∃ n : Nat, c = scheduled start time size n ∧ a ≤ n ∧ (n : Int) ≤ b) →
    cs = [] ∨ (cs.length : Int) ≤ b + 1 - a
  | [], _, _, _, _ => .inl rfl
  | c :: cs, a, b, hs, h => by
    right
    obtain ⟨n, rfl, h1, h2⟩ := h c (by simp)
    rw [List.pairwise_cons] at hs
    rcases count_scheduled size hsz start time cs (n + 1) b hs.2 (by
      intro d hd
      obtain ⟨k, e, k1, k2⟩ := h d (by simp [hd])
      refine ⟨k, e, ?_, k2⟩
      have := hs.1 d hd
      rw [e] at this
      simp only [scheduled] at this
      have := Nat.lt_of_mul_lt_mul_right this
      omega) with h' | h'
    · subst h'; simp; omega
    · simp only [List.length_cons]; omega

/-- C101, chunks. Whatever has been received and displayed before: right after a display at `now`, the number of chunks
an infoer stores is at most the lead (how far ahead of the display the announced chunks reach) in chunk times, plus 2. It
does not depend on how many chunks have been received. -/
theorem C101_infoer_chunks (rate size : Nat) (hsz : 0 < size) (start : Int) (htpos : 0 < chunkTime rate size)
    (evs : List (Ev σ)) (now lead : Int) (hlead : 0 ≤ lead) (outs : List (PlaybackInfo σ)) (s : State σ)
    (hr : Run rate ⟨[], [], []⟩ (evs ++ [.query now]) outs s)
    (hsched : ∀ c ∈ chunksOf evs, ∃ n, c = scheduled start (chunkTime rate size) size n)
    (hd : (chunksOf evs).Pairwise (fun a b => a.startIndex ≠ b.startIndex))
    (hl : ∀ c ∈ chunksOf evs, c.startTime ≤ now + lead) :
    (s.chunks.length : Int) ≤ lead / chunkTime rate size + 2 := by
  obtain ⟨outs', s1, h1, rfl, _⟩ := run_split hr
  obtain ⟨hst, hmem⟩ := run_stored h1 [] .nil (by simp) (by simpa using hd)
  simp only [List.nil_append] at hmem
  have hend := scheduled_end rate size start
  have hmono : s1.chunks.Pairwise (fun a b => a.endTime rate ≤ b.endTime rate) := by
    refine hst.imp_of_mem ?_
    intro a b ha hb hab
    obtain ⟨n, rfl⟩ := hsched a (hmem a ha)
    obtain ⟨m, rfl⟩ := hsched b (hmem b hb)
    simp only [scheduled] at hab
    have : n < m := Nat.lt_of_mul_lt_mul_right hab
    rw [hend, hend]
    have : ((n : Int) + 1) * chunkTime rate size ≤ ((m : Int) + 1) * chunkTime rate size :=
      Int.mul_le_mul_of_nonneg_right (by omega) (by omega)
    omega
  have hall := removeOld_all rate now s1.chunks hmono
  have hsub := InfoRace.removeOldChunks_sublist rate now s1.chunks
  have hinfo : (info rate now s1).2.chunks = removeOldChunks rate now s1.chunks := rfl
  rw [hinfo]
  generalize removeOldChunks rate now s1.chunks = cs at *
  have hpos0 : 0 ≤ lead / chunkTime rate size := Int.ediv_nonneg hlead (by omega)
  generalize chunkTime rate size = T at *
  rcases count_scheduled size hsz start T cs ((now - start - 1) / T) ((now - start - 1) / T + lead / T + 1) (hst.sublist hsub) (by
    intro c hc
    obtain ⟨n, rfl⟩ := hsched c (hmem c (hsub.subset hc))
    have e1 := hall _ hc
    have e2 := hl _ (hmem _ (hsub.subset hc))
    rw [hend] at e1
    simp only [scheduled] at e2
    refine ⟨n, rfl, ?_, ?_⟩
    · have : (now - start - 1) / T < n + 1 := by
        rw [Int.ediv_lt_iff_lt_mul htpos]; omega
      omega
    · -- n * T ≤ now - start + lead
      have q1 := Int.lt_ediv_add_one_mul_self (now - start - 1) htpos
      have q2 := Int.lt_ediv_add_one_mul_self lead htpos
      have : (n : Int) * T < ((now - start - 1) / T + lead / T + 2) * T := by
        have : ((now - start - 1) / T + lead / T + 2) * T = ((now - start - 1) / T + 1) * T + (lead / T + 1) * T := by
          rw [← Int.add_mul]; congr 1; omega
        omega
      have := Int.lt_of_mul_lt_mul_right this (by omega)
      omega) with h | h
  · subst h; simp; omega
  · omega

/-- Non-vacuity: three chunks of one second are received, two of them before the display at 1.5 s, a lead of 1 s. The
first one is dropped. -/
example : ∃ (s : State Unit) (o : PlaybackInfo Unit),
    Run 1000 ⟨[], [], []⟩ ([.chunk ⟨0, 0, 1000⟩, .chunk ⟨1000000000, 1000, 1000⟩, .chunk ⟨2000000000, 2000, 1000⟩] ++
      [.query 1500000000]) [o] s ∧ s.chunks.length = 2 ∧ o.sample = 1500 := by
  refine ⟨_, _, .chunk (s1 := ⟨[], [⟨0, 0, 1000⟩], []⟩) ⟨⟨.refl _, by simp⟩, rfl, rfl⟩ <|
    .chunk (s1 := ⟨[], [⟨0, 0, 1000⟩, ⟨1000000000, 1000, 1000⟩], []⟩) ⟨⟨.refl _, by simp⟩, rfl, rfl⟩ <|
    .chunk (s1 := ⟨[], [⟨0, 0, 1000⟩, ⟨1000000000, 1000, 1000⟩, ⟨2000000000, 2000, 1000⟩], []⟩)
      ⟨⟨.refl _, by simp⟩, rfl, rfl⟩ <| .query <| .nil _, ?_⟩
  decide

/-! ## Toggles -/

theorem inTurn_tail {a : Toggle} {l : List Toggle} (h : InTurn (a :: l)) : InTurn l := by
  cases l with
  | nil => trivial
  | cons b l => exact h.2

theorem inTurn_suffix {P l : List Toggle} (h : InTurn (P ++ l)) : InTurn l := by
  induction P with
  | nil => exact h
  | cons a P ih => exact ih (inTurn_tail h)

/-- In a list in turn that has at most pauses before `start`, at most one is before `start`. -/
theorem few_before (p : Toggle → Bool) (l : List Toggle) (hs : Ascending l) (ht : InTurn l)
    (hdown : ∀ a ∈ l, ∀ b ∈ l, a.toggleIndex < b.toggleIndex → p b = true → p a = true)
    (hp : ∀ a ∈ l, p a = true → a.playing = false) : l.countP p ≤ 1 := by
  cases l with
  | nil => simp
  | cons a l =>
    cases l with
    | nil => simp [List.countP_cons]; split <;> omega
    | cons b l =>
      have hb : p b = false := by
        cases hb : p b with
        | false => rfl
        | true =>
          exfalso
          have hab : a.toggleIndex < b.toggleIndex := (List.pairwise_cons.1 hs).1 b (by simp)
          have ha := hdown a (by simp) b (by simp) hab hb
          exact ht.1 (by rw [hp a (by simp) ha, hp b (by simp) hb])
      have hl : l.countP p = 0 := by
        rw [List.countP_eq_zero]
        intro c hc hpc
        have hbc : b.toggleIndex < c.toggleIndex := (List.pairwise_cons.1 (List.pairwise_cons.1 hs).2).1 c hc
        have := hdown b (by simp) c (by simp [hc]) hbc hpc
        rw [hb] at this; exact absurd this (by simp)
      rw [List.countP_cons, List.countP_cons, hl, hb]
      simp; split <;> omega

/-- Behind the first one kept there is no resume before the song's start. -/
theorem lastResume_last (start : Nat) (ps : List Toggle) : ∀ (i acc : Nat),
    (lastResume start i acc ps = acc ∧ ∀ t ∈ ps, ¬ (t.playing = true ∧ t.toggleIndex < start)) ∨
    ∃ P r Q, ps = P ++ r :: Q ∧ lastResume start i acc ps = i + P.length ∧
      ∀ t ∈ Q, ¬ (t.playing = true ∧ t.toggleIndex < start) := by
  induction ps with
  | nil => intro i acc; exact .inl ⟨rfl, by simp⟩
  | cons p ps ih =>
    intro i acc
    simp only [lastResume]
    rcases ih (i + 1) (if p.playing ∧ p.toggleIndex < start then i else acc) with ⟨h1, h2⟩ | ⟨P, r, Q, e, h1, h2⟩
    · by_cases hp : p.playing = true ∧ p.toggleIndex < start
      · right
        rw [if_pos hp] at h1 ⊢
        exact ⟨[], p, ps, rfl, by simpa using h1, h2⟩
      · left
        rw [if_neg hp] at h1 ⊢
        refine ⟨h1, ?_⟩
        intro t ht
        rcases List.mem_cons.1 ht with rfl | ht
        · exact hp
        · exact h2 t ht
    · right
      exact ⟨p :: P, r, Q, by simp [e], by rw [h1]; simp; omega, h2⟩

/-- A part without resumes up to `first`: at most one toggle of it (a pause) is not after `first`. -/
theorem few_kept (first : Nat) (ps : List Toggle) (hs : Ascending ps) (ht : InTurn ps) (P Q : List Toggle)
    (e : ps = P ++ Q) (h : ∀ t ∈ Q, ¬ (t.playing = true ∧ t.toggleIndex ≤ first)) :
    Q.length ≤ ps.countP (fun t => decide (first < t.toggleIndex)) + 1 := by
  have hsQ : Ascending Q := by rw [e] at hs; exact (List.pairwise_append.1 hs).2.1
  have htQ : InTurn Q := by rw [e] at ht; exact inTurn_suffix ht
  have h1 := few_before (fun t => decide (t.toggleIndex ≤ first)) Q hsQ htQ
    (by intro a _ b _ hab hb; simp at hb ⊢; omega)
    (by intro a ha hp; have := h a ha; cases hpl : a.playing with
        | false => rfl
        | true => exact absurd ⟨hpl, by simpa using hp⟩ this)
  have h2 := List.length_eq_countP_add_countP (fun t : Toggle => decide (t.toggleIndex ≤ first)) (l := Q)
  have h3 : Q.countP (fun t => decide (first < t.toggleIndex)) ≤ ps.countP (fun t => decide (first < t.toggleIndex)) := by
    rw [e, List.countP_append]; omega
  have h4 : Q.countP (fun t => decide ¬ (decide (t.toggleIndex ≤ first) = true)) =
      Q.countP (fun t => decide (first < t.toggleIndex)) := by
    congr 1; funext t
    by_cases h : t.toggleIndex ≤ first
    · simp [h]
    · simp [h]; omega
  omega

theorem removeOldPauses_few (start : Nat) (ps : List Toggle) (hs : Ascending ps) (ht : InTurn ps) :
    (removeOldPauses start ps).length ≤ ps.countP (fun t => decide (start ≤ t.toggleIndex)) + 2 := by
  have key : ∀ (P Q : List Toggle), ps = P ++ Q → (∀ t ∈ Q, ¬ (t.playing = true ∧ t.toggleIndex < start)) →
      Q.length ≤ ps.countP (fun t => decide (start ≤ t.toggleIndex)) + 1 := by
    intro P Q e h
    have hsQ : Ascending Q := by rw [e] at hs; exact (List.pairwise_append.1 hs).2.1
    have htQ : InTurn Q := by rw [e] at ht; exact inTurn_suffix ht
    have h1 := few_before (fun t => decide (t.toggleIndex < start)) Q hsQ htQ
      (by intro a _ b _ hab hb; simp at hb ⊢; omega)
      (by intro a ha hp; have := h a ha; cases hpl : a.playing with
          | false => rfl
          | true => exact absurd ⟨hpl, by simpa using hp⟩ this)
    have h2 := List.length_eq_countP_add_countP (fun t : Toggle => decide (t.toggleIndex < start)) (l := Q)
    have h3 : Q.countP (fun t => decide (start ≤ t.toggleIndex)) ≤ ps.countP (fun t => decide (start ≤ t.toggleIndex)) := by
      rw [e, List.countP_append]; omega
    have h4 : Q.countP (fun t => decide ¬ (decide (t.toggleIndex < start) = true)) =
        Q.countP (fun t => decide (start ≤ t.toggleIndex)) := by
      congr 1; funext t
      by_cases h : t.toggleIndex < start
      · simp [h]
      · simp [h]; omega
    omega
  rcases lastResume_last start ps 0 0 with ⟨h1, h2⟩ | ⟨P, r, Q, e, h1, h2⟩
  · rw [removeOldPauses, h1, List.drop_zero]
    have := key [] ps rfl h2
    omega
  · have := key (P ++ [r]) Q (by simp [e]) h2
    have hlen : (List.drop (0 + P.length) ps).length = Q.length + 1 := by
      rw [List.length_drop, e]; simp
    rw [removeOldPauses, h1, hlen]
    omega

/-- The toggles stored are the last ones received, if they come in order. -/
theorem run_pauses {rate : Nat} {s s' : State σ} {evs : List (Ev σ)} {outs : List (PlaybackInfo σ)}
    (hr : Run rate s evs outs s') : Ascending (s.pauses ++ pausesOf evs) → s'.pauses <:+ s.pauses ++ pausesOf evs := by
  induction hr with
  | nil s => intro _; simp [pausesOf]
  | song h r ih => intro ha; obtain ⟨_, _, e⟩ := h; rw [e] at ih; exact ih ha
  | chunk h r ih => intro ha; obtain ⟨_, _, e⟩ := h; rw [e] at ih; exact ih ha
  | @pause s m s1 evs outs s2 h r ih =>
    intro ha
    obtain ⟨⟨hp, hsort⟩, _, _⟩ := h
    have e : pausesOf (Ev.pause (σ := σ) m :: evs) = m :: pausesOf evs := rfl
    rw [e, show s.pauses ++ m :: pausesOf evs = (s.pauses ++ [m]) ++ pausesOf evs by simp] at ha ⊢
    have ha1 : Ascending (s.pauses ++ [m]) := (List.pairwise_append.1 ha).1
    have : s1.pauses = s.pauses ++ [m] := by
      refine List.Perm.eq_of_pairwise (le := fun a b : Toggle => a.toggleIndex ≤ b.toggleIndex) ?_ hsort
        (ha1.imp (fun h => Nat.le_of_lt h)) hp
      intro a b hma hmb h1 h2
      have hma' := hp.subset hma
      by_cases hab : a = b
      · exact hab
      · exfalso
        rcases pairwise_two ha1 hma' hmb hab with h | h <;> omega
    rw [this] at ih
    exact ih ha
  | @query s now evs outs s2 r ih =>
    intro ha
    have e : pausesOf (Ev.query (σ := σ) now :: evs) = pausesOf evs := rfl
    rw [e] at ha ⊢
    have hsuf : (info rate now s).2.pauses <:+ s.pauses := List.drop_suffix _ _
    obtain ⟨P, hP⟩ := hsuf
    rw [← hP, List.append_assoc] at ha ⊢
    exact (ih (List.pairwise_append.1 ha).2.1).trans (List.suffix_append _ _)

/-- C101. Toggles: if pauses and resumes come in turn and in order, then after every display the infoer stores at most two
toggles more than happened in the song displayed and later, however many it has received. -/
theorem C101_infoer_toggles (rate : Nat) (evs : List (Ev σ)) (now : Int) (outs : List (PlaybackInfo σ)) (s : State σ)
    (hr : Run rate ⟨[], [], []⟩ (evs ++ [.query now]) outs s)
    (hs : Ascending (pausesOf evs)) (ht : InTurn (pausesOf evs)) :
    ∃ o, outs.getLast? = some o ∧
      s.pauses.length ≤ (pausesOf evs).countP (fun t => decide (songStart o.song ≤ t.toggleIndex)) + 2 := by
  obtain ⟨outs', s1, h1, rfl, rfl⟩ := run_split hr
  have hsuf : s1.pauses <:+ pausesOf evs := by simpa using run_pauses h1 (by simpa using hs)
  refine ⟨(info rate now s1).1, by simp, ?_⟩
  obtain ⟨P, hP⟩ := hsuf
  have e2 : (info rate now s1).2.pauses = removeOldPauses (songStart (info rate now s1).1.song) s1.pauses := by
    rw [info_song]; rfl
  have := removeOldPauses_few (songStart (info rate now s1).1.song) s1.pauses
    (by rw [← hP] at hs; exact (List.pairwise_append.1 hs).2.1) (by rw [← hP] at ht; exact inTurn_suffix ht)
  rw [e2, ← hP, List.countP_append]
  omega

/-- C101. Songs: the infoer stores every song it was ever told of; each display leaves all of them. Its memory grows
with every song played. -/
theorem C101_songs_kept (rate : Nat) {s s' : State σ} {evs : List (Ev σ)} {outs : List (PlaybackInfo σ)}
    (hr : Run rate s evs outs s') : s'.songs.Perm (s.songs ++ songsOf evs) := by
  induction hr with
  | nil s => simp [songsOf]
  | @song s m s1 evs outs s2 h r ih =>
    obtain ⟨⟨hp, _⟩, _, _⟩ := h
    have e : songsOf (Ev.song m :: evs) = m :: songsOf evs := rfl
    rw [e, show s.songs ++ m :: songsOf evs = (s.songs ++ [m]) ++ songsOf evs by simp]
    exact ih.trans (hp.append_right _)
  | chunk h r ih => obtain ⟨_, e, _⟩ := h; rw [e] at ih; exact ih
  | pause h r ih => obtain ⟨_, e, _⟩ := h; rw [e] at ih; exact ih
  | query r ih => exact ih

/-- Non-vacuity: a pause and a resume in the first song, a pause in the second, a display in the second song: of three
toggles the first one is dropped, of two songs none. -/
example : ∃ (s : State Unit) (o : PlaybackInfo Unit),
    Run 1000 ⟨[], [], []⟩ ([.song ⟨(), 1, 10⟩, .pause ⟨false, 5⟩, .pause ⟨true, 9⟩, .song ⟨(), 100, 10⟩, .pause ⟨false, 120⟩,
      .chunk ⟨0, 0, 1000⟩] ++ [.query 500000000]) [o] s ∧ s.pauses = [⟨true, 9⟩, ⟨false, 120⟩] ∧ s.songs.length = 2 ∧
      songStart o.song = 100 ∧ o.playing = false := by
  refine ⟨_, _, .song (s1 := ⟨[⟨(), 1, 10⟩], [], []⟩) ⟨⟨.refl _, by simp⟩, rfl, rfl⟩ <|
    .pause (s1 := ⟨[⟨(), 1, 10⟩], [], [⟨false, 5⟩]⟩) ⟨⟨.refl _, by simp⟩, rfl, rfl⟩ <|
    .pause (s1 := ⟨[⟨(), 1, 10⟩], [], [⟨false, 5⟩, ⟨true, 9⟩]⟩) ⟨⟨.refl _, by simp⟩, rfl, rfl⟩ <|
    .song (s1 := ⟨[⟨(), 1, 10⟩, ⟨(), 100, 10⟩], [], [⟨false, 5⟩, ⟨true, 9⟩]⟩) ⟨⟨.refl _, by simp⟩, rfl, rfl⟩ <|
    .pause (s1 := ⟨[⟨(), 1, 10⟩, ⟨(), 100, 10⟩], [], [⟨false, 5⟩, ⟨true, 9⟩, ⟨false, 120⟩]⟩)
      ⟨⟨.refl _, by simp⟩, rfl, rfl⟩ <|
    .chunk (s1 := ⟨[⟨(), 1, 10⟩, ⟨(), 100, 10⟩], [⟨0, 0, 1000⟩], [⟨false, 5⟩, ⟨true, 9⟩, ⟨false, 120⟩]⟩)
      ⟨⟨.refl _, by simp⟩, rfl, rfl⟩ <| .query <| .nil _, ?_⟩
  decide

/-! ## The server -/

theorem removable_last (first : Nat) (ps : List Toggle) : ∀ (i passed : Nat), Ascending ps →
    (Server.removableLoop first i passed ps = passed ∧ ∀ t ∈ ps, ¬ (t.playing = true ∧ t.toggleIndex ≤ first)) ∨
    ∃ P r Q, ps = P ++ r :: Q ∧ Server.removableLoop first i passed ps = i + P.length ∧
      ∀ t ∈ Q, ¬ (t.playing = true ∧ t.toggleIndex ≤ first) := by
  induction ps with
  | nil => intro i acc _; exact .inl ⟨rfl, by simp⟩
  | cons p ps ih =>
    intro i passed ha
    have ha' := List.pairwise_cons.1 ha
    simp only [Server.removableLoop]
    by_cases h1 : first < p.toggleIndex
    · left
      refine ⟨by simp [h1], ?_⟩
      intro t ht
      rcases List.mem_cons.1 ht with rfl | ht
      · omega
      · have := ha'.1 t ht; omega
    · cases hp : p.playing with
      | true =>
        simp only [h1, decide_false, Bool.not_false, Bool.and_self, if_true]
        right
        rcases ih (i + 1) i ha'.2 with ⟨h, h2⟩ | ⟨P, r, Q, e, h, h2⟩
        · exact ⟨[], p, ps, rfl, by simpa using h, h2⟩
        · exact ⟨p :: P, r, Q, by simp [e], by rw [h]; simp; omega, h2⟩
      | false =>
        simp only [h1, decide_false, Bool.not_false, Bool.and_false, Bool.false_eq_true, if_false]
        rcases ih (i + 1) passed ha'.2 with ⟨h, h2⟩ | ⟨P, r, Q, e, h, h2⟩
        · left
          refine ⟨h, ?_⟩
          intro t ht
          rcases List.mem_cons.1 ht with rfl | ht
          · simp [hp]
          · exact h2 t ht
        · exact .inr ⟨p :: P, r, Q, by simp [e], by rw [h]; simp; omega, h2⟩

/-- C101. The server: for every history handled one thing after the other (songs in order of their start, pauses and
resumes in turn and in order) that ends with a toggle, the server keeps at most two toggles more than happened after the
newest song's start. -/
theorem C101_server_toggles (h : List (Server.Op σ)) (t : Toggle) (newest : Song σ)
    (hs : (Server.songsOf h).Pairwise (fun a b => a.startIndex ≤ b.startIndex))
    (hn : (Server.songsOf h).getLast? = some newest)
    (ha : Ascending (Server.togglesOf h ++ [t])) (ht : InTurn (Server.togglesOf h ++ [t])) :
    ∃ ss, Server.applyAll Server.Ss.init (h ++ [.toggle t]) = .ok ss ∧ ss.pauses <:+ Server.togglesOf h ++ [t] ∧
      ss.pauses.length ≤ (Server.togglesOf h ++ [t]).countP (fun t => decide (newest.startIndex < t.toggleIndex)) + 2 := by
  obtain ⟨ss, e1, e2, e3, e4⟩ := Server.applyAll_spec h (Server.Ss.init (σ := σ)) [] (.inl rfl)
    (by simpa [Server.Ss.init] using hs)
  have e3' : ss.newest = some newest := by rw [e3, ← hn]; simp [Server.Ss.init]
  rw [List.nil_append] at e4
  have hsuf : ss.pauses <:+ Server.togglesOf h := by
    rcases e4 with e | ⟨_, P, r, Q, _, g1, g2, _⟩
    · rw [e]; exact List.suffix_refl _
    · rw [g1, g2]; exact List.suffix_append _ _
  obtain ⟨P0, hP0⟩ := hsuf
  have happ : Server.applyAll Server.Ss.init (h ++ [.toggle t]) =
      (Server.removeOldPauses { ss with pauses := ss.pauses ++ [t] }) := by
    rw [applyAll_append, e1]
    simp only [Res.bind, Server.applyAll, Server.apply]
    cases Server.removeOldPauses { ss with pauses := ss.pauses ++ [t] } <;> rfl
  have hful : Server.togglesOf h ++ [t] = P0 ++ (ss.pauses ++ [t]) := by rw [← hP0]; simp
  rw [hful] at ha ht
  have ha1 : Ascending (ss.pauses ++ [t]) := (List.pairwise_append.1 ha).2.1
  have ht1 := inTurn_suffix ht
  rw [happ, hful]
  generalize ss.pauses ++ [t] = ps at *
  have key : ∀ (P Q : List Toggle), ps = P ++ Q → (∀ t ∈ Q, ¬ (t.playing = true ∧ t.toggleIndex ≤ newest.startIndex)) →
      Q.length ≤ (P0 ++ ps).countP (fun t => decide (newest.startIndex < t.toggleIndex)) + 1 := by
    intro P Q e hq
    have := few_kept newest.startIndex ps ha1 ht1 P Q e hq
    rw [List.countP_append]; omega
  have hrem : Server.removable { ss with pauses := ps } = Server.removableLoop newest.startIndex 0 0 ps := by
    simp only [Server.removable, e3']
  rcases removable_last newest.startIndex ps 0 0 ha1 with ⟨h1, h2⟩ | ⟨P, r, Q, e, h1, h2⟩
  · refine ⟨{ ss with pauses := ps }, by simp only [Server.removeOldPauses, hrem, h1, Nat.lt_irrefl, if_false], List.suffix_append _ _, ?_⟩
    have := key [] ps rfl h2
    simp only; omega
  · have := key (P ++ [r]) Q (by simp [e]) h2
    by_cases hz : 0 < P.length
    · refine ⟨{ ss with pauses := r :: Q }, ?_, ⟨P0 ++ P, by simp [e]⟩, by simp only [List.length_cons]; omega⟩
      simp only [Server.removeOldPauses, hrem, h1, Nat.zero_add, hz, if_true]
      rw [Server.cut_ok _ _ (by rw [e]; simp), e, List.drop_left]
      rfl
    · have : P = [] := List.eq_nil_of_length_eq_zero (by omega)
      subst this
      refine ⟨{ ss with pauses := ps }, by simp only [Server.removeOldPauses, hrem, h1, List.length_nil, Nat.add_zero, Nat.lt_irrefl, if_false],
        List.suffix_append _ _, ?_⟩
      simp only [e, List.nil_append, List.length_cons] at *
      omega

/-- Non-vacuity. -/
example : ∃ ss, Server.applyAll (σ := Unit) Server.Ss.init ([.song ⟨(), 0, 5⟩, .toggle ⟨false, 10⟩, .toggle ⟨true, 20⟩,
    .song ⟨(), 100, 5⟩] ++ [.toggle ⟨false, 110⟩]) = .ok ss ∧ ss.pauses = [⟨true, 20⟩, ⟨false, 110⟩] := ⟨_, rfl, rfl⟩

end MS.Bounded
