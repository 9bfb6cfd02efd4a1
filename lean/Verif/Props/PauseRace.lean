import Verif.Props.StreamLoop
/-!
# Property C97: announcements of pausing and resuming catch up with what is streamed
-/
set_option linter.unusedSimpArgs false
namespace MS.StreamLoop
open MS.Spec

variable {α : Type}

/-- Specification: the play state according to all announcements made: the last one; playing, if there is none. -/
def announced (pauses : List (Bool × Nat)) : Bool := (pauses.getLast?.map (·.1)).getD true

/-- `SetPlaying` and the loop is between storing the new state (playback/playlist.go:134) and announcing it (135). -/
def between (s : St α) : Act → Bool
  | .setPlaying _ => match s.pc with | .h3 _ => true | _ => false
  | _ => false

/-- No pause or resume of the schedule falls between these two statements. -/
def Calm (c : Cfg α) : St α → List Act → Prop
  | _, [] => True
  | s, a :: as => between s a = false ∧ ∀ s1, step c s a = some s1 → Calm c s1 as

/-- Not a pause or resume. -/
def Other : Act → Prop
  | .setPlaying _ => False
  | _ => True

/-- What the loop does to the announcements: nothing, or announce in `h3`. -/
theorem loop_announce {c : Cfg α} {s s' : St α} (h : loopStep c s = some s') :
    s'.playing = s.playing ∧
    ((∃ r, s.pc = .h1 r ∧ s.playing ≠ s.playingLast ∧ s'.pc = .h2 r ∧ s'.pauses = s.pauses ∧ s'.playingLast = s.playingLast) ∨
     (∃ r, s.pc = .h1 r ∧ s.playing = s.playingLast ∧ s'.pc = .body r ∧ s'.pauses = s.pauses ∧ s'.playingLast = s.playingLast) ∨
     (∃ r, s.pc = .h2 r ∧ s'.pc = .h3 r ∧ s'.pauses = s.pauses ∧ s'.playingLast = s.playing) ∨
     (∃ r, s.pc = .h3 r ∧ s'.pc = .body r ∧ s'.pauses = s.pauses ++ [(s.playing, s.out.length)] ∧ s'.playingLast = s.playingLast) ∨
     ((∀ r, s.pc ≠ .h1 r ∧ s.pc ≠ .h2 r ∧ s.pc ≠ .h3 r) ∧ (∀ r, s'.pc ≠ .h2 r ∧ s'.pc ≠ .h3 r ∧ s'.pc ≠ .body r) ∧
       s'.pauses = s.pauses ∧ s'.playingLast = s.playingLast)) := by
  unfold loopStep at h
  cases hpc : s.pc with
  | h1 r =>
    rw [hpc] at h
    simp only at h
    split at h
    · rename_i hp
      simp at h; subst h
      exact ⟨rfl, Or.inl ⟨r, rfl, hp, rfl, rfl, rfl⟩⟩
    · rename_i hp
      simp at h; subst h
      exact ⟨rfl, Or.inr (Or.inl ⟨r, rfl, by simpa using hp, rfl, rfl, rfl⟩)⟩
  | h2 r =>
    rw [hpc] at h
    simp at h; subst h
    exact ⟨rfl, Or.inr (Or.inr (Or.inl ⟨r, rfl, rfl, rfl, rfl⟩))⟩
  | h3 r =>
    rw [hpc] at h
    simp at h; subst h
    exact ⟨rfl, Or.inr (Or.inr (Or.inr (Or.inl ⟨r, rfl, rfl, rfl, rfl⟩)))⟩
  | crashed => rw [hpc] at h; simp at h
  | _ =>
    rw [hpc] at h
    simp only at h
    have key : s'.playing = s.playing ∧ (∀ r, s'.pc ≠ .h2 r ∧ s'.pc ≠ .h3 r ∧ s'.pc ≠ .body r) ∧
       s'.pauses = s.pauses ∧ s'.playingLast = s.playingLast := by
      grind
    exact ⟨key.1, Or.inr (Or.inr (Or.inr (Or.inr ⟨by simp, key.2⟩)))⟩

/-- What the loop does to the blocks: nothing, or push one in `body`. -/
theorem loop_blocks {c : Cfg α} {s s' : St α} (h : loopStep c s = some s') :
    (s'.blocks = s.blocks ∧ (s'.out = s.out ∨ ∃ t, s'.out = s.out ++ t)) ∨
    (∃ r n t, s.pc = .body r ∧ s'.blocks = s.blocks ++ [(s.out.length, n)] ∧ s'.out = s.out ++ t ∧ t.length = n ∧
      ∀ x ∈ t, (x.isSome = true ↔ s.playing = true)) := by
  unfold loopStep at h
  cases hpc : s.pc with
  | body r =>
    rw [hpc] at h
    right
    simp only at h
    split at h
    · rename_i hp
      simp at h
      subst h
      refine ⟨r, min bufSize r.length, (r.take (min bufSize r.length)).map some, rfl, rfl, by simp [List.map_take], by simp, ?_⟩
      intro x hx
      simp only [List.mem_map] at hx
      obtain ⟨v, -, rfl⟩ := hx
      simp [hp]
    · rename_i hp
      simp at h
      subst h
      refine ⟨r, bufSize, List.replicate bufSize none, rfl, rfl, rfl, by simp, ?_⟩
      intro x hx
      simp [List.eq_of_mem_replicate hx, hp]
  | _ =>
    left
    rw [hpc] at h
    simp only at h
    grind

/-- In calm schedules the last announcement is what the loop remembers, except between storing and announcing. -/
theorem calm_inv {c : Cfg α} : ∀ (acts : List Act) (s s' : St α), Calm c s acts → run c s acts = some s' →
    ((∀ r, s.pc ≠ .h3 r) → announced s.pauses = s.playingLast) → (∀ r, s.pc = .h3 r → s.playing = s.playingLast) →
    ((∀ r, s'.pc ≠ .h3 r) → announced s'.pauses = s'.playingLast) ∧ (∀ r, s'.pc = .h3 r → s'.playing = s'.playingLast) := by
  intro acts
  induction acts with
  | nil => intro s s' _ h h1 h2; simp [run] at h; subst h; exact ⟨h1, h2⟩
  | cons a as ih =>
    intro s s' hc h h1 h2
    simp only [run] at h
    split at h
    · rename_i s1 hs
      refine ih s1 s' (hc.2 s1 hs) h ?_ ?_
      · intro hp
        rcases step_cases hs with ⟨_, h⟩ | ⟨p, _, rfl⟩ | ⟨_, _, _, rfl⟩ | ⟨b, rfl, rfl⟩ | ⟨l, _, rfl⟩
        · obtain ⟨e0, hh⟩ := loop_announce h
          rcases hh with ⟨r, e1, -, -, e4, e5⟩ | ⟨r, e1, -, -, e4, e5⟩ | ⟨r, e1, e2, -⟩ | ⟨r, e1, e2, e3, e4⟩ | ⟨e1, e2, e3, e4⟩
          · rw [e4, e5]; exact h1 (by simp [e1])
          · rw [e4, e5]; exact h1 (by simp [e1])
          · exact absurd e2 (hp r)
          · rw [e3, e4]; simp [announced]; exact h2 r e1
          · rw [e3, e4]; exact h1 (fun r => (e1 r).2.2)
        · exact h1 hp
        · exact h1 hp
        · exact h1 hp
        · exact h1 hp
      · intro r hp
        rcases step_cases hs with ⟨_, h⟩ | ⟨p, _, rfl⟩ | ⟨_, _, _, rfl⟩ | ⟨b, rfl, rfl⟩ | ⟨l, _, rfl⟩
        · obtain ⟨e0, hh⟩ := loop_announce h
          rcases hh with ⟨r, e1, -, e3, -⟩ | ⟨r, e1, -, e3, -⟩ | ⟨r, e1, e2, e3, e4⟩ | ⟨r, e1, e2, -⟩ | ⟨e1, e2, -⟩
          · rw [e3] at hp; simp at hp
          · rw [e3] at hp; simp at hp
          · rw [e0, e4]
          · rw [e2] at hp; simp at hp
          · exact absurd hp (e2 r).2.1
        · exact h2 r hp
        · exact h2 r hp
        · have := hc.1
          simp only at hp
          simp [between, hp] at this
        · exact h2 r hp
    · simp at h

/-- All announcements at or before `j`: they decide at `j`. -/
theorem playingAt_all (ps : List (Bool × Nat)) (j : Nat) (h : ∀ p ∈ ps, p.2 ≤ j) : playingAt ps j = announced ps := by
  unfold playingAt announced
  rw [List.filter_eq_self.2 (by simpa using h)]
  cases ps.getLast? <;> rfl

/-- The facts that hold while nobody pauses or resumes, from a moment at which `p` was the play state and `n0` samples had
been streamed. -/
structure After (p : Bool) (n0 : Nat) (s : St α) : Prop where
  play : s.playing = p
  ann : (∀ r, s.pc ≠ .h3 r) → announced s.pauses = s.playingLast
  h3 : ∀ r, s.pc = .h3 r → s.playingLast = p
  body : ∀ r, s.pc = .body r → s.playingLast = p
  le : ∀ q ∈ s.pauses, q.2 ≤ s.out.length
  from0 : n0 ≤ s.out.length
  blk : ∀ b ∈ s.blocks, n0 ≤ b.1 → 0 < b.2 → s.playingLast = p ∧ (∀ r, s.pc ≠ .h2 r ∧ s.pc ≠ .h3 r) ∧
    (∀ q ∈ s.pauses, q.2 ≤ b.1) ∧ b.1 + b.2 ≤ s.out.length ∧
    ∀ j, b.1 ≤ j → j < b.1 + b.2 → ((∃ a, s.out[j]? = some (some a)) ↔ p = true)

theorem after_step {c : Cfg α} {p : Bool} {n0 : Nat} {s s' : St α} {a : Act} (ho : Other a) (hi : After p n0 s)
    (hs : step c s a = some s') : After p n0 s' := by
  obtain ⟨i1, i2, i3, i4, i5, i6, i7⟩ := hi
  rcases step_cases hs with ⟨_, h⟩ | ⟨q, _, rfl⟩ | ⟨_, _, _, rfl⟩ | ⟨b, rfl, rfl⟩ | ⟨l, _, rfl⟩
  · obtain ⟨e0, hh⟩ := loop_announce h
    have hb := loop_blocks h
    have hext : ∃ t, s'.out = s.out ++ t := by
      rcases hb with ⟨-, hb | hb⟩ | ⟨_, _, t, -, -, hb, -⟩
      · exact ⟨[], by simp [hb]⟩
      · exact hb
      · exact ⟨t, hb⟩
    obtain ⟨t0, ht0⟩ := hext
    -- old blocks keep their content
    have keep : ∀ b : Nat × Nat, b.1 + b.2 ≤ s.out.length → (∀ j, b.1 ≤ j → j < b.1 + b.2 →
        ((∃ a, s.out[j]? = some (some a)) ↔ p = true)) → b.1 + b.2 ≤ s'.out.length ∧ ∀ j, b.1 ≤ j → j < b.1 + b.2 →
        ((∃ a, s'.out[j]? = some (some a)) ↔ p = true) := by
      intro b hb1 hb2
      refine ⟨by rw [ht0]; simp; omega, ?_⟩
      intro j hj1 hj2
      rw [ht0, List.getElem?_append_left (by omega)]
      exact hb2 j hj1 hj2
    have hle' : ∀ q ∈ s.pauses, q.2 ≤ s'.out.length := by
      intro q hq; have := i5 q hq; rw [ht0]; simp; omega
    have hn0' : n0 ≤ s'.out.length := by rw [ht0]; simp; omega
    rcases hh with ⟨r, e1, e2, e3, e4, e5⟩ | ⟨r, e1, e2, e3, e4, e5⟩ | ⟨r, e1, e2, e3, e4⟩ | ⟨r, e1, e2, e3, e4⟩ | ⟨e1, e2, e3, e4⟩
    · -- h1 to h2
      have hbl : s'.blocks = s.blocks := by
        rcases hb with ⟨hb, -⟩ | ⟨_, _, _, hb, -⟩
        · exact hb
        · rw [e1] at hb; simp at hb
      refine ⟨by rw [e0, i1], fun _ => by rw [e4, e5]; exact i2 (by simp [e1]), ?_, ?_, by rw [e4]; exact hle', hn0', ?_⟩
      · intro r' h'; rw [e3] at h'; simp at h'
      · intro r' h'; rw [e3] at h'; simp at h'
      · intro b hb1 hb2 hb3
        rw [hbl] at hb1
        have := (i7 b hb1 hb2 hb3).1
        exact absurd (by rw [this, i1]) e2
    · -- h1 to body
      have hbl : s'.blocks = s.blocks := by
        rcases hb with ⟨hb, -⟩ | ⟨_, _, _, hb, -⟩
        · exact hb
        · rw [e1] at hb; simp at hb
      refine ⟨by rw [e0, i1], fun _ => by rw [e4, e5]; exact i2 (by simp [e1]), ?_, ?_, by rw [e4]; exact hle', hn0', ?_⟩
      · intro r' h'; rw [e3] at h'; simp at h'
      · intro r' h'; rw [e5, ← e2, i1]
      · intro b hb1 hb2 hb3
        rw [hbl] at hb1
        obtain ⟨k1, k2, k3, k4, k5⟩ := i7 b hb1 hb2 hb3
        exact ⟨by rw [e5]; exact k1, by simp [e3], by rw [e4]; exact k3, keep b k4 k5⟩
    · -- h2 to h3
      have hbl : s'.blocks = s.blocks := by
        rcases hb with ⟨hb, -⟩ | ⟨_, _, _, hb, -⟩
        · exact hb
        · rw [e1] at hb; simp at hb
      refine ⟨by rw [e0, i1], fun h' => absurd e2 (h' r), ?_, ?_, by rw [e3]; exact hle', hn0', ?_⟩
      · intro r' h'; rw [e4, i1]
      · intro r' h'; rw [e2] at h'; simp at h'
      · intro b hb1 hb2 hb3
        rw [hbl] at hb1
        exact absurd e1 ((i7 b hb1 hb2 hb3).2.1 r).1
    · -- h3 to body
      have hbl : s'.blocks = s.blocks := by
        rcases hb with ⟨hb, -⟩ | ⟨_, _, _, hb, -⟩
        · exact hb
        · rw [e1] at hb; simp at hb
      refine ⟨by rw [e0, i1], fun _ => by rw [e3, e4, i3 r e1]; simp [announced, i1], ?_, ?_, ?_, hn0', ?_⟩
      · intro r' h'; rw [e2] at h'; simp at h'
      · intro r' h'; rw [e4]; exact i3 r e1
      · intro q hq
        rw [e3] at hq
        rcases List.mem_append.1 hq with hq | hq
        · exact hle' q hq
        · simp at hq; subst hq; rw [ht0]; simp
      · intro b hb1 hb2 hb3
        rw [hbl] at hb1
        exact absurd e1 ((i7 b hb1 hb2 hb3).2.1 r).2
    · refine ⟨by rw [e0, i1], fun _ => by rw [e3, e4]; exact i2 (fun r => (e1 r).2.2), ?_, ?_, by rw [e3]; exact hle', hn0', ?_⟩
      · intro r' h'; exact absurd h' (e2 r').2.1
      · intro r' h'; exact absurd h' (e2 r').2.2
      · intro b hb1 hb2 hb3
        rcases hb with ⟨hbl, -⟩ | ⟨r, n, t, hpc, hbl, hout, htl, hcont⟩
        · rw [hbl] at hb1
          obtain ⟨k1, k2, k3, k4, k5⟩ := i7 b hb1 hb2 hb3
          exact ⟨by rw [e4]; exact k1, fun r => ⟨(e2 r).1, (e2 r).2.1⟩, by rw [e3]; exact k3, keep b k4 k5⟩
        · rw [hbl] at hb1
          rcases List.mem_append.1 hb1 with hb1 | hb1
          · obtain ⟨k1, k2, k3, k4, k5⟩ := i7 b hb1 hb2 hb3
            exact ⟨by rw [e4]; exact k1, fun r => ⟨(e2 r).1, (e2 r).2.1⟩, by rw [e3]; exact k3, keep b k4 k5⟩
          · simp at hb1
            subst hb1
            refine ⟨by rw [e4]; exact i4 r hpc, fun r => ⟨(e2 r).1, (e2 r).2.1⟩, by rw [e3]; exact i5, ?_, ?_⟩
            · rw [hout]; simp [htl]
            · intro j hj1 hj2
              simp only at hj1 hj2
              rw [hout, List.getElem?_append_right hj1]
              have hlt : j - s.out.length < t.length := by omega
              rw [List.getElem?_eq_getElem hlt]
              have := hcont _ (List.getElem_mem hlt)
              rw [← i1, ← this]
              constructor
              · rintro ⟨a, ha⟩; simp at ha; simp [ha]
              · intro hx
                obtain ⟨a, ha⟩ := Option.isSome_iff_exists.1 hx
                exact ⟨a, by simp [ha]⟩
  · exact ⟨i1, i2, i3, i4, i5, i6, i7⟩
  · exact ⟨i1, i2, i3, i4, i5, i6, i7⟩
  · exact absurd ho (by simp [Other])
  · exact ⟨i1, i2, i3, i4, i5, i6, i7⟩

theorem after_run {c : Cfg α} {p : Bool} {n0 : Nat} {s s' : St α} {acts : List Act} (ho : ∀ a ∈ acts, Other a)
    (hi : After p n0 s) (h : run c s acts = some s') : After p n0 s' :=
  run_induct (c := c) (ok := Other) (P := After p n0) (fun _ _ _ h1 h2 h3 => after_step h1 h2 h3) ho hi h

/-- Blocks that are there lie within the stream. -/
theorem blocks_within {c : Cfg α} {songs : List String} {acts : List Act} {s : St α} (h : run c (init songs) acts = some s) :
    ∀ b ∈ s.blocks, b.1 + b.2 ≤ s.out.length := by
  refine run_induct (c := c) (ok := fun _ => True) (P := fun s => ∀ b ∈ s.blocks, b.1 + b.2 ≤ s.out.length)
    ?_ (by simp) (by simp [init]) h
  intro s s' a _ hi hs
  rcases step_cases hs with ⟨_, h⟩ | ⟨q, _, rfl⟩ | ⟨_, _, _, rfl⟩ | ⟨b, rfl, rfl⟩ | ⟨l, _, rfl⟩
  · rcases loop_blocks h with ⟨hb, hb' | ⟨t, hb'⟩⟩ | ⟨_, n, t, -, hb, ho, hn, -⟩
    · rw [hb, hb']; exact hi
    · rw [hb, hb']; intro b hb; have := hi b hb; simp; omega
    · rw [hb, ho]
      intro b hb
      rcases List.mem_append.1 hb with hb | hb
      · have := hi b hb; simp; omega
      · simp at hb; subst hb; simp [hn]
  all_goals exact hi

/-- C97, the part that holds. Whatever pauses and resumes there have been, in whatever race with the loop, but none of them
between the two statements that store and announce a new state: once they stop, every block streamed from then on (if
the loop is not just about to push one, or announcing) is music exactly if the announcements say "playing" there,
whatever jumps and edits come, forever.
Missing from the full property: schedules that are not calm (`C97_stuck`). -/
theorem C97_catches_up_partial (c : Cfg α) (songs : List String) (acts later : List Act) (s s' : St α)
    (h : run c (init songs) acts = some s) (hc : Calm c (init songs) acts)
    (hpc : ∀ r, s.pc ≠ .h2 r ∧ s.pc ≠ .h3 r ∧ s.pc ≠ .body r)
    (hl : ∀ a ∈ later, ∀ b, a ≠ .setPlaying b) (h' : run c s later = some s') :
    s'.playing = s.playing ∧
    ∀ b ∈ s'.blocks, s.out.length ≤ b.1 → ∀ j, b.1 ≤ j → j < b.1 + b.2 →
      ((∃ a, s'.out[j]? = some (some a)) ↔ playingAt s'.pauses j = true) := by
  have h1 := (calm_inv acts _ s hc h (fun _ => rfl) (by simp [init])).1
  have hle := (C10_indices_ordered c songs acts s h).2
  have hw := blocks_within h
  have ha : After s.playing s.out.length s := by
    refine ⟨rfl, h1, fun r hr => absurd hr (hpc r).2.1, fun r hr => absurd hr (hpc r).2.2, hle, Nat.le_refl _, ?_⟩
    intro b hb hb1 hb2
    have := hw b hb
    omega
  have ho : ∀ a ∈ later, Other a := by
    intro a ha
    cases a with
    | setPlaying b => exact absurd rfl (hl _ ha b)
    | _ => simp [Other]
  obtain ⟨i1, i2, -, -, -, -, i7⟩ := after_run ho ha h'
  refine ⟨i1, ?_⟩
  intro b hb hb0 j hj1 hj2
  obtain ⟨k1, k2, k3, k4, k5⟩ := i7 b hb hb0 (by omega)
  rw [k5 j hj1 hj2, playingAt_all s'.pauses j (fun q hq => by have := k3 q hq; omega), i2 (fun r => (k2 r).2), k1]

/-- C97 fails: a resume and a pause (or a pause and a resume) around the moment of the announcement leave a wrong
announcement that is never corrected. In every state in which a change to `p` has been stored and is about to be
announced, the opposite of `p` set just before and `p` set again just after the announcement make the loop announce the
opposite of `p`; it streams according to `p`, and as long as nobody pauses or resumes again, nothing else is
announced and each block is music exactly if the announcements say "paused" there. -/
theorem C97_stuck (c : Cfg α) (songs : List String) (acts later : List Act) (s s' : St α) (r : List α)
    (h : run c (init songs) acts = some s) (hpc : s.pc = .h3 r) (hp : s.playing = s.playingLast)
    (hl : ∀ a ∈ later, ∀ b, a ≠ .setPlaying b)
    (h' : run c s ([.setPlaying (!s.playing), .loop, .setPlaying s.playing] ++ later) = some s') :
    s'.playing = s.playing ∧ s'.pauses = s.pauses ++ [(!s.playing, s.out.length)] ∧
    ∀ b ∈ s'.blocks, s.out.length ≤ b.1 → ∀ j, b.1 ≤ j → j < b.1 + b.2 →
      ((∃ a, s'.out[j]? = some (some a)) ↔ playingAt s'.pauses j = false) := by
  have e1 : step c s (.setPlaying (!s.playing)) = some { s with playing := !s.playing } := by simp [step, hpc]
  have e2 : step c { s with playing := !s.playing } .loop =
      some { s with playing := !s.playing, pauses := s.pauses ++ [(!s.playing, s.out.length)], pc := .body r } := by
    simp [step, hpc, loopStep]
  have e3 : step c { s with playing := !s.playing, pauses := s.pauses ++ [(!s.playing, s.out.length)], pc := .body r }
      (.setPlaying s.playing) =
      some { s with pauses := s.pauses ++ [(!s.playing, s.out.length)], pc := .body r } := by
    simp [step]
  simp only [List.cons_append, List.nil_append, run, e1, e2, e3] at h'
  have hle := (C10_indices_ordered c songs acts s h).2
  have hw := blocks_within h
  let P : St α → Prop := fun t => t.playing = s.playing ∧ t.playingLast = s.playing ∧
    (∀ r, t.pc ≠ .h2 r ∧ t.pc ≠ .h3 r) ∧ t.pauses = s.pauses ++ [(!s.playing, s.out.length)] ∧ s.out.length ≤ t.out.length ∧
    (∀ b ∈ t.blocks, b.1 + b.2 ≤ t.out.length) ∧
    ∀ b ∈ t.blocks, s.out.length ≤ b.1 → ∀ j, b.1 ≤ j → j < b.1 + b.2 → ((∃ a, t.out[j]? = some (some a)) ↔ s.playing = true)
  have hP : P s' := by
    refine run_induct (c := c) (ok := fun a => ∀ b, a ≠ .setPlaying b) (P := P) ?_ hl ?_ h'
    · intro t t' a ha hi hs
      obtain ⟨i1, i2, i3, i4, i5, i6, i7⟩ := hi
      rcases step_cases hs with ⟨_, h⟩ | ⟨q, _, rfl⟩ | ⟨_, _, _, rfl⟩ | ⟨b, rfl, rfl⟩ | ⟨l, _, rfl⟩
      · obtain ⟨e0, hh⟩ := loop_announce h
        have hann : t'.playingLast = t.playingLast ∧ t'.pauses = t.pauses ∧ ∀ r, t'.pc ≠ .h2 r ∧ t'.pc ≠ .h3 r := by
          rcases hh with ⟨r, f1, f2, -⟩ | ⟨r, f1, f2, f3, f4, f5⟩ | ⟨r, f1, -⟩ | ⟨r, f1, -⟩ | ⟨f1, f2, f3, f4⟩
          · exact absurd (by rw [i1, i2]) f2
          · exact ⟨f5, f4, by simp [f3]⟩
          · exact absurd f1 (i3 r).1
          · exact absurd f1 (i3 r).2
          · exact ⟨f4, f3, fun r => ⟨(f2 r).1, (f2 r).2.1⟩⟩
        refine ⟨by rw [e0, i1], by rw [hann.1, i2], hann.2.2, by rw [hann.2.1, i4], ?_⟩
        rcases loop_blocks h with ⟨hb, hb'⟩ | ⟨_, n, x, -, hb, ho, hn, hx⟩
        · have hb' : ∃ x, t'.out = t.out ++ x := by
            rcases hb' with hb' | hb'
            · exact ⟨[], by simp [hb']⟩
            · exact hb'
          obtain ⟨x, hb'⟩ := hb'
          rw [hb, hb']
          refine ⟨by simp; omega, fun b hb => by have := i6 b hb; simp; omega, ?_⟩
          intro b hb hb0 j hj1 hj2
          have := i6 b hb
          rw [List.getElem?_append_left (by omega)]
          exact i7 b hb hb0 j hj1 hj2
        · rw [hb, ho]
          refine ⟨by simp; omega, ?_, ?_⟩
          · intro b hb
            rcases List.mem_append.1 hb with hb | hb
            · have := i6 b hb; simp; omega
            · simp at hb; subst hb; simp [hn]
          · intro b hb hb0 j hj1 hj2
            rcases List.mem_append.1 hb with hb | hb
            · have := i6 b hb
              rw [List.getElem?_append_left (by omega)]
              exact i7 b hb hb0 j hj1 hj2
            · simp at hb; subst hb
              simp only at hj1 hj2
              rw [List.getElem?_append_right hj1]
              have hlt : j - t.out.length < x.length := by omega
              rw [List.getElem?_eq_getElem hlt]
              have := hx _ (List.getElem_mem hlt)
              rw [← i1, ← this]
              constructor
              · rintro ⟨a, ha⟩; simp at ha; simp [ha]
              · intro hx
                obtain ⟨a, ha⟩ := Option.isSome_iff_exists.1 hx
                exact ⟨a, by simp [ha]⟩
      · exact ⟨i1, i2, i3, i4, i5, i6, i7⟩
      · exact ⟨i1, i2, i3, i4, i5, i6, i7⟩
      · exact absurd rfl (ha b)
      · exact ⟨i1, i2, i3, i4, i5, i6, i7⟩
    · refine ⟨rfl, hp.symm, by simp, rfl, Nat.le_refl _, hw, ?_⟩
      intro b hb hb0 j hj1 hj2
      have := hw b hb
      omega
  obtain ⟨i1, i2, i3, i4, i5, i6, i7⟩ := hP
  refine ⟨i1, i4, ?_⟩
  intro b hb hb0 j hj1 hj2
  rw [i7 b hb hb0 j hj1 hj2, i4, playingAt_all _ j]
  · simp [announced]
  · intro q hq
    rcases List.mem_append.1 hq with hq | hq
    · have := hle q hq; omega
    · simp at hq; subst hq; simp; omega

set_option maxRecDepth 20000 in
/-- C97 refuted by one run: after a pause that is announced while somebody resumes and pauses again, the announcements say
"playing" and the stream stays silent. (Non-vacuity of `C97_stuck`.) -/
theorem C97_refuted :
    ∃ s s', run demoCfg (init ["a"]) [.loop, .loop, .loop, .loop, .loop] = some s ∧ s.pc = .h3 (List.replicate 1200 ()) ∧
      s.playing = s.playingLast ∧
      run demoCfg s ([.setPlaying true, .loop, .setPlaying false] ++ [.loop, .loop, .loop, .loop, .loop, .loop, .loop]) = some s' ∧
      s'.pauses = [(true, 0)] ∧ s'.blocks = [(0, 512), (512, 512), (1024, 512)] ∧ s'.out[1500]? = some none :=
  ⟨_, _, rfl, rfl, rfl, rfl, rfl, rfl, rfl⟩

set_option maxRecDepth 20000 in
/-- Non-vacuity of `C97_catches_up_partial`: a pause that falls between the announcement and the block; the block contradicts
the announcement, the next ones do not. -/
example : ∃ s s', run demoCfg (init ["a"]) [.setPlaying true, .loop, .loop, .loop, .loop, .setPlaying false, .loop] = some s ∧
    Calm demoCfg (init ["a"]) [.setPlaying true, .loop, .loop, .loop, .loop, .setPlaying false, .loop] ∧
    s.pauses = [] ∧ s.blocks = [(0, 512)] ∧ s.out[0]? = some none ∧
    s.pc = .chk (List.replicate 1200 ()) 512 true ∧
    run demoCfg s [.loop, .loop, .loop, .loop, .loop] = some s' ∧
    s'.pauses = [(false, 512)] ∧ s'.blocks = [(0, 512), (512, 512)] := by
  refine ⟨_, _, rfl, ?_, rfl, rfl, rfl, rfl, rfl, rfl, rfl⟩
  repeat' first
    | exact trivial
    | (refine ⟨rfl, ?_⟩; intro s1 h; injection h with h; subst h)

end MS.StreamLoop
