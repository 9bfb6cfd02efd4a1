import Verif.Lemmas.StreamLoop
/-! Helper lemmas for the stream loop, continued: announcement indices, pauses, positions. -/
namespace MS.StreamLoop
open MS.Spec

variable {α : Type}

/-! ### Announcement indices -/

/-- All announcements made so far lie strictly before the end of the stream. -/
def AllBefore (news : List (Nat × String × Nat)) (n : Nat) : Prop := ∀ e ∈ news, e.1 < n

/-- Invariant behind the strict order of announcements. -/
def NewsInv (c : Cfg α) (s : St α) : Prop :=
  s.news.Pairwise (fun a b => a.1 < b.1) ∧ (∀ e ∈ s.news, e.1 ≤ s.out.length) ∧
  match s.pc with
  | .h1 rem => 0 < c.brk ∨ rem ≠ [] ∨ AllBefore s.news s.out.length
  | .h2 rem => 0 < c.brk ∨ rem ≠ [] ∨ AllBefore s.news s.out.length
  | .h3 rem => 0 < c.brk ∨ rem ≠ [] ∨ AllBefore s.news s.out.length
  | .body rem => 0 < c.brk ∨ rem ≠ [] ∨ AllBefore s.news s.out.length
  | .chk _ _ _ => 0 < c.brk ∨ AllBefore s.news s.out.length
  | .incR false => 0 < c.brk ∨ AllBefore s.news s.out.length
  | .incW false _ => 0 < c.brk ∨ AllBefore s.news s.out.length
  | .brk => 0 < c.brk ∨ AllBefore s.news s.out.length
  | _ => AllBefore s.news s.out.length

theorem allBefore_mono {news : List (Nat × String × Nat)} {n m : Nat} (h : AllBefore news n) (hm : n ≤ m) :
    AllBefore news m := fun e he => Nat.lt_of_lt_of_le (h e he) hm

theorem newsInv_loop {c : Cfg α} (hne : 0 < c.brk ∨ ∀ name l, c.dec name = some l → l ≠ []) {s s' : St α}
    (hi : NewsInv c s) (h : loopStep c s = some s') : NewsInv c s' := by
  obtain ⟨songs, position, tokens, inflight, playing, playingLast, current, pc, out, news, pauses, blocks, cuts⟩ := s
  obtain ⟨hp, hle, hi⟩ := hi
  simp only at hp hle hi
  have hle' : ∀ m, ∀ e ∈ news, e.1 ≤ out.length + m := fun m e he => by have := hle e he; omega
  cases pc with
  | top =>
    simp only [loopStep] at h
    split at h
    · injection h with h; subst h
      exact ⟨hp, by simpa using hle' _, by simpa using allBefore_mono hi (Nat.le_add_right _ _)⟩
    · split at h <;> injection h with h <;> subst h <;> exact ⟨hp, hle, hi⟩
  | store pos song =>
    simp only [loopStep] at h
    split at h <;> injection h with h <;> subst h
    · exact ⟨hp, by simpa using hle' _, by simpa using allBefore_mono hi (Nat.le_add_right _ _)⟩
    · exact ⟨hp, hle, hi⟩
  | opening song =>
    simp only [loopStep] at h
    split at h <;> injection h with h <;> subst h
    · exact ⟨hp, hle, hi⟩
    · rename_i l hdec
      refine ⟨?_, ?_, ?_⟩
      · rw [List.pairwise_append]
        refine ⟨hp, List.pairwise_singleton _ _, ?_⟩
        intro a ha b hb
        simp at hb
        subst hb
        exact hi a ha
      · intro e he
        simp at he
        rcases he with he | he
        · exact hle e he
        · subst he; exact Nat.le_refl _
      · rcases hne with hne | hne
        · exact Or.inl hne
        · exact Or.inr (Or.inl (hne song l hdec))
  | h1 rem =>
    simp only [loopStep] at h
    split at h <;> injection h with h <;> subst h <;> exact ⟨hp, hle, hi⟩
  | h2 rem => simp only [loopStep] at h; injection h with h; subst h; exact ⟨hp, hle, hi⟩
  | h3 rem => simp only [loopStep] at h; injection h with h; subst h; exact ⟨hp, hle, hi⟩
  | body rem =>
    simp only [loopStep] at h
    split at h <;> injection h with h <;> subst h
    · refine ⟨hp, by simpa using hle' _, ?_⟩
      rcases hi with hi | hi | hi
      · exact Or.inl hi
      · right
        intro e he
        have h1 := hle e he
        have h2 := List.length_pos_iff.2 hi
        have h3 : bufSize = 512 := rfl
        simp only [List.length_append, List.length_map, List.length_take]
        omega
      · exact Or.inr (by simpa using allBefore_mono hi (Nat.le_add_right _ _))
    · refine ⟨hp, by simpa using hle' _, Or.inr ?_⟩
      intro e he
      have h1 := hle e he
      have h3 : bufSize = 512 := rfl
      simp only [List.length_append, List.length_replicate]
      omega
  | chk rem n ok =>
    simp only [loopStep] at h
    split at h
    · injection h with h; subst h; exact ⟨hp, hle, hi⟩
    · split at h <;> injection h with h <;> subst h
      · exact ⟨hp, hle, hi⟩
      · refine ⟨hp, hle, ?_⟩
        rcases hi with hi | hi
        · exact Or.inl hi
        · exact Or.inr (Or.inr hi)
  | incR skip =>
    simp only [loopStep] at h
    injection h with h; subst h
    cases skip <;> exact ⟨hp, hle, hi⟩
  | incW skip v =>
    simp only [loopStep] at h
    injection h with h; subst h
    cases skip <;> exact ⟨hp, hle, hi⟩
  | brk =>
    simp only [loopStep] at h
    injection h with h; subst h
    refine ⟨hp, by simpa using hle' _, ?_⟩
    rcases hi with hi | hi
    · intro e he
      have h1 := hle e he
      simp only [List.length_append, List.length_replicate]
      omega
    · simpa using allBefore_mono hi (Nat.le_add_right _ _)
  | crashed => simp [loopStep] at h

theorem newsInv_step {c : Cfg α} (hne : 0 < c.brk ∨ ∀ name l, c.dec name = some l → l ≠ []) {s s' : St α} {a : Act}
    (hi : NewsInv c s) (h : step c s a = some s') : NewsInv c s' := by
  rcases step_cases h with ⟨_, h⟩ | ⟨p, _, rfl⟩ | ⟨_, _, _, rfl⟩ | ⟨b, _, rfl⟩ | ⟨l, _, rfl⟩
  · exact newsInv_loop hne hi h
  all_goals exact hi

/-! ### Pauses -/

/-- A `SetPlaying` takes effect between the loop's four reads of `playing` for one block. -/
def racy (s : St α) : Act → Bool
  | .setPlaying _ =>
    match s.pc with
    | .h2 _ => true
    | .h3 _ => true
    | .body _ => true
    | _ => false
  | _ => false

/-- Invariant of the pause announcements when no `SetPlaying` falls between the reads of one block. -/
structure PauseInv (s : St α) : Prop where
  alt : ∀ i p, s.pauses[i]? = some p → p.1 = (i % 2 == 1)
  ord : s.pauses.Pairwise (fun a b => a.2 ≤ b.2)
  le : ∀ p ∈ s.pauses, p.2 ≤ s.out.length
  blk : ∀ b ∈ s.blocks, b.1 + b.2 ≤ s.out.length ∧ ∀ j, b.1 ≤ j → j < b.1 + b.2 →
    ((∃ a, s.out[j]? = some (some a)) ↔ playingAt s.pauses j = true)
  pcs : match s.pc with
    | .h2 _ => s.playing ≠ s.playingLast ∧ s.playingLast = (s.pauses.length % 2 == 0)
    | .h3 _ => s.playing = s.playingLast ∧ s.playingLast ≠ (s.pauses.length % 2 == 0)
    | .body _ => s.playing = s.playingLast ∧ s.playingLast = (s.pauses.length % 2 == 0)
    | _ => s.playingLast = (s.pauses.length % 2 == 0)

theorem pauseInv_init (songs : List String) : PauseInv (α := α) (init songs) := by
  constructor <;> simp [init]

/-- A later announcement does not change the play state of earlier samples. -/
theorem playingAt_snoc {ps : List (Bool × Nat)} {p : Bool × Nat} {j : Nat} (h : j < p.2) :
    playingAt (ps ++ [p]) j = playingAt ps j := by
  unfold playingAt
  rw [List.filter_append]
  have : [p].filter (fun q => q.2 ≤ j) = [] := by
    simp; omega
  rw [this, List.append_nil]

/-- At or after all announcements the last one decides. -/
theorem playingAt_last {ps : List (Bool × Nat)} {j : Nat} (h : ∀ p ∈ ps, p.2 ≤ j) :
    playingAt ps j = match ps.getLast? with
      | some p => p.1
      | none => true := by
  unfold playingAt
  rw [List.filter_eq_self.2 (by intro p hp; simpa using h p hp)]
  rfl

theorem playingAt_alt {ps : List (Bool × Nat)} {j : Nat} (h : ∀ p ∈ ps, p.2 ≤ j)
    (halt : ∀ (i : Nat) p, ps[i]? = some p → p.1 = (i % 2 == 1)) : playingAt ps j = (ps.length % 2 == 0) := by
  rw [playingAt_last h]
  cases hl : ps.getLast? with
  | none => simp at hl; subst hl; rfl
  | some p =>
    rw [List.getLast?_eq_getElem?] at hl
    simp only
    rw [halt _ p hl]
    have hpos : 0 < ps.length := by
      cases ps with
      | nil => simp at hl
      | cons _ _ => simp
    by_cases h2 : ps.length % 2 = 0
    · have : (ps.length - 1) % 2 = 1 := by omega
      simp [h2, this]
    · have : (ps.length - 1) % 2 = 0 := by omega
      simp [h2, this]

theorem blk_mono {out ext : List (Option α)} {ps : List (Bool × Nat)} {blocks : List (Nat × Nat)}
    (h : ∀ b ∈ blocks, b.1 + b.2 ≤ out.length ∧ ∀ j, b.1 ≤ j → j < b.1 + b.2 →
      ((∃ a, out[j]? = some (some a)) ↔ playingAt ps j = true)) :
    ∀ b ∈ blocks, b.1 + b.2 ≤ (out ++ ext).length ∧ ∀ j, b.1 ≤ j → j < b.1 + b.2 →
      ((∃ a, (out ++ ext)[j]? = some (some a)) ↔ playingAt ps j = true) := by
  intro b hb
  obtain ⟨h1, h2⟩ := h b hb
  refine ⟨by simp; omega, ?_⟩
  intro j hj1 hj2
  rw [List.getElem?_append_left (by omega)]
  exact h2 j hj1 hj2

theorem pauseInv_push {s : St α} {ext : List (Option α)} (hi : PauseInv s) (pc : Pc α)
    (hpc : match pc with
      | .h2 _ => False
      | .h3 _ => False
      | .body _ => False
      | _ => s.playingLast = (s.pauses.length % 2 == 0)) (pos : Int) :
    PauseInv { s with position := pos, out := s.out ++ ext, pc := pc } := by
  obtain ⟨h1, h2, h3, h4, h5⟩ := hi
  refine ⟨h1, h2, ?_, blk_mono h4, ?_⟩
  · intro p hp; have := h3 p hp; simp; omega
  · cases pc <;> simp at hpc ⊢ <;> exact hpc

theorem pauseInv_loop {c : Cfg α} {s s' : St α} (hi : PauseInv s) (h : loopStep c s = some s') : PauseInv s' := by
  have hi0 := hi
  obtain ⟨songs, position, tokens, inflight, playing, playingLast, current, pc, out, news, pauses, blocks, cuts⟩ := s
  obtain ⟨h1, h2, h3, h4, h5⟩ := hi
  simp only at h1 h2 h3 h4 h5
  cases pc with
  | top =>
    simp only [loopStep] at h
    split at h
    · injection h with h; subst h
      exact pauseInv_push hi0 .top h5 _
    · split at h <;> injection h with h <;> subst h <;> exact ⟨h1, h2, h3, h4, h5⟩
  | store pos song =>
    simp only [loopStep] at h
    split at h <;> injection h with h <;> subst h
    · exact pauseInv_push hi0 .top h5 _
    · exact ⟨h1, h2, h3, h4, h5⟩
  | opening song =>
    simp only [loopStep] at h
    split at h <;> injection h with h <;> subst h <;> exact ⟨h1, h2, h3, h4, h5⟩
  | h1 rem =>
    simp only [loopStep] at h
    split at h <;> rename_i hc <;> injection h with h <;> subst h
    · exact ⟨h1, h2, h3, h4, hc, h5⟩
    · exact ⟨h1, h2, h3, h4, by simpa using hc, h5⟩
  | h2 rem =>
    simp only [loopStep] at h; injection h with h; subst h
    refine ⟨h1, h2, h3, h4, rfl, ?_⟩
    rw [← h5.2]; exact h5.1
  | h3 rem =>
    simp only [loopStep] at h; injection h with h; subst h
    have hpar : playing = (pauses.length % 2 == 1) := by
      have := h5.2
      rw [h5.1]
      by_cases hx : pauses.length % 2 = 0
      · simp [hx] at this ⊢; exact this
      · have hx' : pauses.length % 2 = 1 := by omega
        simp [hx'] at this ⊢; exact this
    refine ⟨?_, ?_, ?_, ?_, h5.1, ?_⟩
    · intro i p hp
      rw [List.getElem?_append] at hp
      split at hp
      · exact h1 i p hp
      · rename_i hlt
        have hz : i - pauses.length = 0 := by
          rcases Nat.eq_zero_or_pos (i - pauses.length) with hz | hz
          · exact hz
          · rw [List.getElem?_eq_none (by simp; omega)] at hp; simp at hp
        rw [hz] at hp
        simp at hp
        subst hp
        have : i = pauses.length := by omega
        rw [this]; exact hpar
    · simp only
      rw [List.pairwise_append]
      refine ⟨h2, List.pairwise_singleton _ _, ?_⟩
      intro a ha b hb
      simp at hb; subst hb
      exact h3 a ha
    · intro p hp
      simp at hp
      rcases hp with hp | hp
      · exact h3 p hp
      · subst hp; exact Nat.le_refl _
    · intro b hb
      obtain ⟨hb1, hb2⟩ := h4 b hb
      refine ⟨hb1, ?_⟩
      intro j hj1 hj2
      rw [playingAt_snoc (by simp only at hb1 ⊢; omega)]
      exact hb2 j hj1 hj2
    · simp only
      rw [← h5.1, hpar]
      simp only [List.length_append, List.length_singleton]
      by_cases hx : pauses.length % 2 = 0
      · have : (pauses.length + 1) % 2 = 1 := by omega
        simp [hx, this]
      · have hx' : pauses.length % 2 = 1 := by omega
        have : (pauses.length + 1) % 2 = 0 := by omega
        simp [hx', this]
  | body rem =>
    obtain ⟨h5, h6⟩ := h5
    simp only [loopStep] at h
    split at h <;> rename_i hplay <;> injection h with h <;> subst h
    · refine ⟨h1, h2, ?_, ?_, h6⟩
      · intro p hp; have := h3 p hp; simp; omega
      · intro b hb
        simp only [List.mem_append, List.mem_singleton] at hb
        rcases hb with hb | hb
        · exact blk_mono h4 b hb
        · subst hb
          refine ⟨by simp, ?_⟩
          intro j hj1 hj2
          simp only at hj1 hj2
          rw [playingAt_alt (fun p hp => by have := h3 p hp; omega) h1, ← h6, ← h5, hplay]
          rw [List.getElem?_append_right hj1]
          have : j - out.length < min bufSize rem.length := by omega
          simp [this]
    · refine ⟨h1, h2, ?_, ?_, h6⟩
      · intro p hp; have := h3 p hp; simp; omega
      · intro b hb
        simp only [List.mem_append, List.mem_singleton] at hb
        rcases hb with hb | hb
        · exact blk_mono h4 b hb
        · subst hb
          refine ⟨by simp, ?_⟩
          intro j hj1 hj2
          simp only at hj1 hj2
          rw [playingAt_alt (fun p hp => by have := h3 p hp; omega) h1, ← h6, ← h5]
          rw [List.getElem?_append_right hj1]
          simp [List.getElem?_replicate, hplay]
  | chk rem n ok =>
    simp only [loopStep] at h
    split at h
    · injection h with h; subst h; exact ⟨h1, h2, h3, h4, h5⟩
    · split at h <;> injection h with h <;> subst h <;> exact ⟨h1, h2, h3, h4, h5⟩
  | incR skip =>
    simp only [loopStep] at h
    injection h with h; subst h
    exact ⟨h1, h2, h3, h4, h5⟩
  | incW skip v =>
    simp only [loopStep] at h
    injection h with h; subst h
    cases skip <;> exact ⟨h1, h2, h3, h4, h5⟩
  | brk =>
    simp only [loopStep] at h
    injection h with h; subst h
    exact pauseInv_push hi0 .top h5 _
  | crashed => simp [loopStep] at h

theorem pauseInv_step {c : Cfg α} {s s' : St α} {a : Act} (hr : racy s a = false) (hi : PauseInv s)
    (h : step c s a = some s') : PauseInv s' := by
  rcases step_cases h with ⟨_, h⟩ | ⟨p, _, rfl⟩ | ⟨_, _, _, rfl⟩ | ⟨b, rfl, rfl⟩ | ⟨l, _, rfl⟩
  · exact pauseInv_loop hi h
  · exact ⟨hi.1, hi.2, hi.3, hi.4, hi.5⟩
  · exact ⟨hi.1, hi.2, hi.3, hi.4, hi.5⟩
  · obtain ⟨h1, h2, h3, h4, h5⟩ := hi
    refine ⟨h1, h2, h3, h4, ?_⟩
    simp only [racy] at hr
    simp only
    cases hpc : s.pc <;> simp [hpc] at hr h5 ⊢ <;> exact h5
  · exact ⟨hi.1, hi.2, hi.3, hi.4, hi.5⟩

end MS.StreamLoop
