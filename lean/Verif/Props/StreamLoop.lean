import Verif.Lemmas.StreamLoop2
/-!
# Properties C06 - C10, C12: what the streaming loop pushes and announces

Executions are arbitrary schedules `acts` of loop steps and actions of other goroutines.
-/
namespace MS.StreamLoop
open MS.Spec

variable {α : Type}

/-! ### C08: pausing never drops or duplicates audio -/

/-- The loop is inside the block loop of pushStreamer. -/
def inSong : Pc α → Bool
  | .h1 _ => true
  | .h2 _ => true
  | .h3 _ => true
  | .body _ => true
  | .chk _ _ _ => true
  | _ => false

theorem explained_weaken {songOf : String → Option (List α)} {cuts : List Nat} {news : List (Nat × String × Nat)}
    {out : List (Option α)} (h : Explained songOf cuts true news out) : Explained songOf cuts false news out := by
  cases news with
  | nil => exact h
  | cons p older =>
    obtain ⟨k, name, len⟩ := p
    obtain ⟨h1, h2, l, h3, h4, h5, _⟩ := h
    exact ⟨h1, h2, l, h3, h4, h5, by simp⟩

/-- C08. Whatever is done to the play state, the position and the playlist, at every moment the pushed stream
decomposes along the announcements (`Explained`): each announced song's stretch holds, besides NaNs, a prefix of the
song's decoded samples in order, and the whole song if the song is over and was not cut by a jump. -/
theorem C08_stream_explained (c : Cfg α) (songs : List String) (acts : List Act) (s : St α)
    (h : run c (init songs) acts = some s) :
    Explained c.dec s.cuts (!inSong s.pc) s.news.reverse s.out := by
  have hi : OutInv c s := run_induct (ok := fun _ => True) (fun _ _ _ _ hi hs => outInv_step hi hs) (by simp)
    (outInv_init c songs) h
  obtain ⟨_, hi⟩ := hi
  cases hpc : s.pc with
  | incR skip => rw [hpc] at hi; cases skip <;> simp [inSong] <;> first | exact hi | exact hi.1
  | incW skip v => rw [hpc] at hi; cases skip <;> simp [inSong] <;> first | exact hi | exact hi.1
  | _ => rw [hpc] at hi; simp [inSong]; first | exact hi | exact hi.1

theorem explained_index {songOf : String → Option (List α)} {cuts : List Nat} (r : List (Nat × String × Nat)) :
    ∀ (e : Bool) (out : List (Option α)), Explained songOf cuts e r out →
    ∀ (i k : Nat) (name : String) (len : Nat), r.reverse[i]? = some (k, name, len) →
    ∀ k', k' = ((r.reverse[i + 1]?).map (·.1)).getD out.length →
    k ≤ k' ∧ k' ≤ out.length ∧ ∃ l, songOf name = some l ∧ len = l.length ∧ audio ((out.take k').drop k) <+: l ∧
      (e = true ∨ i + 1 < r.length → i + 1 ∉ cuts → audio ((out.take k').drop k) = l) := by
  induction r with
  | nil => intro e out _ i k name len h; simp at h
  | cons p older ih =>
    intro e out h i k name len hi k' hk'
    obtain ⟨kp, np, lp⟩ := p
    obtain ⟨h1, h2, l, h3, h4, h5, h6⟩ := h
    simp only [List.reverse_cons] at hi hk'
    by_cases hlt : i < older.length
    · rw [List.getElem?_append_left (by simpa using hlt)] at hi
      have hnext : k' = ((older.reverse[i + 1]?).map (·.1)).getD (out.take kp).length := by
        rw [hk', List.getElem?_append]
        by_cases hl2 : i + 1 < older.reverse.length
        · rw [if_pos hl2, List.getElem?_eq_getElem hl2]; rfl
        · rw [if_neg hl2, List.getElem?_eq_none (l := older.reverse) (by omega)]
          have : i + 1 - older.reverse.length = 0 := by simp at hl2 ⊢; omega
          rw [this]
          simp; omega
      obtain ⟨a1, a2, l', a3, a4, a5, a6⟩ := ih true (out.take kp) h2 i k name len hi k' hnext
      have htk : (out.take kp).take k' = out.take k' := by
        rw [List.take_take]; congr 1; simp at a2; omega
      rw [htk] at a5 a6
      refine ⟨a1, by simp at a2; omega, l', a3, a4, a5, fun _ hn => a6 (Or.inl rfl) hn⟩
    · have hil : i = older.length := by
        have := (List.getElem?_eq_some_iff.1 hi).1
        simp at this; omega
      rw [List.getElem?_append_right (by simp; omega)] at hi
      have : i - older.reverse.length = 0 := by simp; omega
      rw [this] at hi
      simp at hi
      obtain ⟨rfl, rfl, rfl⟩ := hi
      have hk : k' = out.length := by
        rw [hk', List.getElem?_eq_none (by simp; omega)]; rfl
      rw [hk, List.take_length]
      refine ⟨h1, Nat.le_refl _, l, h3, h4, h5, ?_⟩
      intro he hn
      apply h6
      · rcases he with he | he
        · exact he
        · simp at he; omega
      · rw [← hil]; exact hn

/-- C08, spelled out per song: the `i`-th announced song is a playable one; what is pushed from its announced index to
the next announcement holds exactly a prefix of its samples, in order, besides NaNs; if another song has been
announced since and no jump took effect during song `i`, it holds all of them. -/
theorem C08_each_song_complete (c : Cfg α) (songs : List String) (acts : List Act) (s : St α)
    (h : run c (init songs) acts = some s) (i k : Nat) (name : String) (len : Nat)
    (hi : s.news[i]? = some (k, name, len)) :
    ∃ l, c.dec name = some l ∧ len = l.length ∧
      (∀ k', k' = ((s.news[i + 1]?).map (·.1)).getD s.out.length →
        k ≤ k' ∧ audio ((s.out.take k').drop k) <+: l ∧
        (i + 1 < s.news.length → i + 1 ∉ s.cuts → audio ((s.out.take k').drop k) = l)) := by
  have hE := C08_stream_explained c songs acts s h
  have := explained_index s.news.reverse _ s.out hE i k name len (by simpa using hi)
  simp only [List.reverse_reverse, List.length_reverse] at this
  obtain ⟨_, _, l, h3, h4, _, _⟩ := this _ rfl
  refine ⟨l, h3, h4, ?_⟩
  intro k' hk'
  obtain ⟨a1, _, l', a3, _, a5, a6⟩ := this k' hk'
  rw [h3] at a3
  injection a3 with a3
  subst a3
  exact ⟨a1, a5, fun hlt hn => a6 (Or.inr hlt) hn⟩

/-- C08, before the first announcement there is no audio at all. -/
theorem C08_no_audio_before_first (c : Cfg α) (songs : List String) (acts : List Act) (s : St α)
    (h : run c (init songs) acts = some s) :
    audio (s.out.take ((s.news.head?.map (·.1)).getD s.out.length)) = [] := by
  have hE := C08_stream_explained c songs acts s h
  have gen : ∀ (r : List (Nat × String × Nat)) (e : Bool) (out : List (Option α)), Explained c.dec s.cuts e r out →
      audio (out.take ((r.reverse.head?.map (·.1)).getD out.length)) = [] := by
    intro r
    induction r with
    | nil => intro e out h; simpa [Explained] using h
    | cons p older ih =>
      intro e out h
      obtain ⟨k, name, len⟩ := p
      obtain ⟨h1, h2, _⟩ := h
      have := ih _ _ h2
      cases hrev : older.reverse with
      | nil =>
        rw [hrev] at this
        simp only [List.head?_nil, Option.map_none, Option.getD_none, List.take_length] at this
        simpa [hrev] using this
      | cons q qs =>
        rw [hrev] at this
        simp only [List.head?_cons, Option.map_some, Option.getD_some, List.take_take] at this
        simp only [List.reverse_cons, hrev, List.cons_append, List.head?_cons, Option.map_some, Option.getD_some]
        have hle := (explained_index older true (out.take k) h2 0 q.1 q.2.1 q.2.2 (by simp [hrev]) _ rfl)
        have hq : q.1 ≤ k := by
          have a := Nat.le_trans hle.1 hle.2.1
          rw [List.length_take] at a; omega
        have hm : min q.1 k = q.1 := by omega
        rw [hm] at this
        exact this
  have := gen s.news.reverse _ s.out hE
  simpa using this

/-! ### C09: announced start index -/

/-- C09. If song breaks or songs are non-empty, announcements come in strictly increasing index order and none lies
beyond the end of the stream. Together with `C08_each_song_complete` (the audio from the announced index to the next one is a prefix of
exactly that song) the announced index is where that song's samples begin. -/
theorem C09_announcements_increasing (c : Cfg α)
    (hne : 0 < c.brk ∨ ∀ name l, c.dec name = some l → l ≠ []) (songs : List String) (acts : List Act) (s : St α)
    (h : run c (init songs) acts = some s) :
    s.news.Pairwise (fun a b => a.1 < b.1) ∧ ∀ e ∈ s.news, e.1 ≤ s.out.length := by
  have hi : NewsInv c s := run_induct (ok := fun _ => True) (fun _ _ _ _ hi hs => newsInv_step hne hi hs) (by simp)
    (by simp [NewsInv, init, AllBefore]) h
  exact ⟨hi.1, hi.2.1⟩

/-- C09, exactness at the moment of the announcement: a step announces a song only with the current stream length,
the name about to be played and its length, and pushes nothing in that step. -/
theorem C09_announced_at_stream_end (c : Cfg α) (s s' : St α) (a : Act) (e : Nat × String × Nat)
    (h : step c s a = some s') (he : s'.news = s.news ++ [e]) :
    e.1 = s.out.length ∧ s'.out = s.out ∧ s'.current = e.2.1 ∧ ∃ l, c.dec e.2.1 = some l ∧ e.2.2 = l.length ∧ s'.pc = .h1 l := by
  have hne : s.news ≠ s.news ++ [e] := by
    intro hx
    have := congrArg List.length hx
    simp at this
  rcases step_cases h with ⟨_, h⟩ | ⟨p, _, rfl⟩ | ⟨_, _, _, rfl⟩ | ⟨b, _, rfl⟩ | ⟨l, _, rfl⟩
  · unfold loopStep at h
    split at h
    case h_3 song hpc =>
      split at h <;> rename_i hdec
      · injection h with h; subst h; exact absurd he hne
      · injection h with h; subst h
        simp at he
        subst he
        exact ⟨rfl, rfl, rfl, _, hdec, rfl, rfl⟩
    all_goals exfalso; apply hne; rw [← he]; grind
  all_goals exact absurd he hne

/-! ### C10: pause announcements -/

/-- No `SetPlaying` of the schedule takes effect between the loop's reads of `playing` for one block. -/
def Quiet (c : Cfg α) : St α → List Act → Prop
  | _, [] => True
  | s, a :: as => racy s a = false ∧ ∀ s1, step c s a = some s1 → Quiet c s1 as

theorem pauseInv_run {c : Cfg α} {s s' : St α} {acts : List Act} (hq : Quiet c s acts) (hi : PauseInv s)
    (h : run c s acts = some s') : PauseInv s' := by
  induction acts generalizing s with
  | nil => simp [run] at h; subst h; exact hi
  | cons a as ih =>
    simp only [run] at h
    split at h
    · rename_i s1 h1
      exact ih (hq.2 s1 h1) (pauseInv_step hq.1 hi h1) h
    · simp at h

/-- C10, for schedules in which no pause/resume falls between the reads of `playing` for one block: announcements
alternate paused, playing, paused, ... (the first is always "paused"), with non-decreasing indices within the
stream, and a sample of a song block is audio exactly when the last announcement at or before it says playing (no
announcement yet means playing). Missing from the full property: schedules with such a race, where it is false
(`C10_race_breaks_alternation`, `C10_race_breaks_blocks`). -/
theorem C10_pauses_exact_partial (c : Cfg α) (songs : List String) (acts : List Act) (s : St α)
    (hq : Quiet c (init songs) acts) (h : run c (init songs) acts = some s) :
    (∀ i p, s.pauses[i]? = some p → p.1 = (i % 2 == 1)) ∧
    s.pauses.Pairwise (fun a b => a.2 ≤ b.2) ∧ (∀ p ∈ s.pauses, p.2 ≤ s.out.length) ∧
    ∀ b ∈ s.blocks, ∀ j, b.1 ≤ j → j < b.1 + b.2 →
      ((∃ a, s.out[j]? = some (some a)) ↔ playingAt s.pauses j = true) := by
  have hi := pauseInv_run hq (pauseInv_init songs) h
  exact ⟨hi.alt, hi.ord, hi.le, fun b hb => (hi.blk b hb).2⟩

/-- Index order of announcements holds under every schedule. -/
theorem C10_indices_ordered (c : Cfg α) (songs : List String) (acts : List Act) (s : St α)
    (h : run c (init songs) acts = some s) :
    s.pauses.Pairwise (fun a b => a.2 ≤ b.2) ∧ ∀ p ∈ s.pauses, p.2 ≤ s.out.length := by
  refine run_induct (c := c) (ok := fun _ => True)
    (P := fun s => s.pauses.Pairwise (fun a b => a.2 ≤ b.2) ∧ ∀ p ∈ s.pauses, p.2 ≤ s.out.length)
    ?_ (by simp) (by simp [init]) h
  intro s s' a _ hi hs
  obtain ⟨h2, h3⟩ := hi
  rcases step_cases hs with ⟨_, h⟩ | ⟨p, _, rfl⟩ | ⟨_, _, _, rfl⟩ | ⟨b, _, rfl⟩ | ⟨l, _, rfl⟩
  · have key : (s'.pauses = s.pauses ∨ s'.pauses = s.pauses ++ [(s.playing, s.out.length)]) ∧
        s.out.length ≤ s'.out.length := by
      unfold loopStep at h
      grind
    obtain ⟨h1 | h1, hl⟩ := key
    · rw [h1]; exact ⟨h2, fun p hp => Nat.le_trans (h3 p hp) hl⟩
    · rw [h1]
      refine ⟨?_, ?_⟩
      · rw [List.pairwise_append]
        refine ⟨h2, List.pairwise_singleton _ _, ?_⟩
        intro a ha b hb
        simp at hb; subst hb
        exact h3 a ha
      · intro p hp
        simp at hp
        rcases hp with hp | hp
        · exact Nat.le_trans (h3 p hp) hl
        · subst hp; exact hl
  all_goals exact ⟨h2, h3⟩

/-- A song of 1200 samples. -/
def demoCfg : Cfg Unit := { dec := fun n => if n = "bad" then none else some (List.replicate 1200 ()), brk := 3 }

set_option maxRecDepth 20000 in
/-- C10 is false under races: a resume between the comparison and the handler call announces "playing" twice in a
row, without a "paused" before. -/
theorem C10_race_breaks_alternation :
    ∃ s, run demoCfg (init ["a"]) [.loop, .loop, .loop, .loop, .loop, .setPlaying true, .loop, .loop, .loop,
        .loop, .loop, .loop] = some s ∧
      s.pauses = [(true, 0), (true, 512)] := ⟨_, rfl, rfl⟩

set_option maxRecDepth 20000 in
/-- C10 is false under races: the last announcement says "paused" but the block pushed after it is audio. -/
theorem C10_race_breaks_blocks :
    ∃ s, run demoCfg (init ["a"]) [.loop, .loop, .loop, .loop, .loop, .loop, .setPlaying true, .loop] = some s ∧
      s.pauses = [(false, 0)] ∧ s.blocks = [(0, 512)] ∧ s.out[0]? = some (some ()) := ⟨_, rfl, rfl, rfl, rfl⟩

/-- Non-vacuity: a quiet schedule with a pause in the middle of a song and a natural end. -/
def demoActs : List Act :=
  [.setPlaying true, .loop, .loop, .loop,           -- nextSong, open: announce at 0
   .loop, .loop, .loop,                             -- block 1 (audio)
   .setPlaying false, .loop, .loop, .loop, .loop, .loop, -- announce pause, NaN block
   .setPlaying true, .loop, .loop, .loop, .loop, .loop,  -- announce resume, block 2 (audio)
   .loop, .loop, .loop,                             -- last, short block
   .loop, .loop, .loop]                             -- position++, break

set_option maxRecDepth 20000 in
example : Quiet demoCfg (init ["a", "b"]) demoActs := by
  unfold demoActs
  repeat' first
    | exact trivial
    | (refine ⟨rfl, ?_⟩; intro s1 h; injection h with h; subst h)

set_option maxRecDepth 20000 in
example : ∃ s, run demoCfg (init ["a", "b"]) demoActs = some s ∧ s.news = [(0, "a", 1200)] ∧
    s.pauses = [(false, 512), (true, 1024)] ∧ s.blocks = [(0, 512), (512, 512), (1024, 512), (1536, 176)] ∧
    s.position = 1 ∧ s.out.length = 1715 ∧ s.pc = .top := ⟨_, rfl, rfl, rfl, rfl, rfl, rfl, rfl⟩

end MS.StreamLoop
