import Verif.Model.ServerStart
/-!
# C124: nothing is lost while the server starts

The stream and the console run before `Server` is done. Whatever the order in which they and `Server` go on:

* `C124_announced`: every song that begins is announced, with its name, its first sample and its length, and no pausing or
  resuming is noticed by the stream while there is nobody to tell it to.
* `C124_as_after_start`: what the playlist does is what it does with both handlers set from the beginning, with the same commands
  in the same order: what C06 to C12, C63, C64, C80 and C97 say of that playlist holds from the first moment on.
* `C124_starts`: `Server` can always go on, ends after ten statements, and then the stream runs and all seven commands are there,
  each once.
* `C124_commands_in_order`: until then the commands there are the first ones of these seven.
-/
namespace MS.ServerStart
open MS.StreamLoop

/-- The commands `Server` offers. -/
def offered : List String := ["queue", "playlist", "remove", "jump", "volume", "pause", "resume"]

/-- The same actions, without those of `Server`: a stream step is a stream step, a queue or remove command some change of the list,
and jumps, pauses and resumes are those typed. -/
inductive Same : List Act → List StreamLoop.Act → Prop
  | nil : Same [] []
  | boot {as bs} : Same as bs → Same (.boot :: as) bs
  | loop {as bs} : Same as bs → Same (.loop :: as) (.loop :: bs)
  | queue {as bs x i l} : Same as bs → Same (.queue x i :: as) (.edit l :: bs)
  | remove {as bs i l} : Same as bs → Same (.remove i :: as) (.edit l :: bs)
  | jump {as bs p} : Same as bs → Same (.jump p :: as) (.jumpWrite p :: bs)
  | jumpToken {as bs} : Same as bs → Same (.jumpToken :: as) (.jumpToken :: bs)
  | pause {as bs} : Same as bs → Same (.pause :: as) (.setPlaying false :: bs)
  | resume {as bs} : Same as bs → Same (.resume :: as) (.setPlaying true :: bs)

/-- What holds at every moment. -/
structure Inv {α : Type} (s : St α) : Prop where
  place : ∃ k, k ≤ 10 ∧ s.todo = server.drop k ∧ s.running = decide (1 ≤ k) ∧ s.newSong = decide (2 ≤ k) ∧
    s.pauseToggle = decide (3 ≤ k) ∧ s.commands = offered.take (k - 3)
  quiet : s.commands = [] → s.pl.songs = [] ∧ s.pl.pc = .top
  said : s.begun = s.pl.news
  missed : s.missed = 0

theorem inv_init {α : Type} : Inv (init : St α) :=
  ⟨⟨0, by simp [init, offered]⟩, fun _ => ⟨rfl, rfl⟩, rfl, rfl⟩

theorem Inv.handlers {α : Type} {s : St α} (h : Inv s) (hc : s.commands ≠ []) : s.newSong = true ∧ s.pauseToggle = true := by
  obtain ⟨k, _, _, _, h2, h3, h4⟩ := h.place
  have : 3 < k := by
    refine Classical.byContradiction fun hk => hc ?_
    rw [h4, show k - 3 = 0 by omega]; rfl
  rw [h2, h3]
  simp; omega

theorem boot_inv {α : Type} {s : St α} {t : Stmt} {ts : List Stmt} (h : Inv s) (e : s.todo = t :: ts) :
    Inv (boot { s with todo := ts } t) ∧ (boot { s with todo := ts } t).pl = s.pl := by
  obtain ⟨⟨k, hk, h0, h1, h2, h3, h4⟩, hq, hs, hm⟩ := h
  have hk' : k < 10 := by
    refine Classical.byContradiction fun hn => ?_
    rw [show k = 10 by omega] at h0
    simp [server] at h0
    rw [h0] at e; cases e
  have cases10 : k = 0 ∨ k = 1 ∨ k = 2 ∨ k = 3 ∨ k = 4 ∨ k = 5 ∨ k = 6 ∨ k = 7 ∨ k = 8 ∨ k = 9 := by omega
  rcases cases10 with rfl | rfl | rfl | rfl | rfl | rfl | rfl | rfl | rfl | rfl <;>
  · rw [h0] at e
    simp only [server, List.drop_succ_cons, List.drop_zero, List.cons.injEq] at e
    obtain ⟨rfl, rfl⟩ := e
    refine ⟨⟨⟨_, hk', ?_⟩, ?_, hs, hm⟩, rfl⟩
    · simp [boot, server, h1, h2, h3, h4, offered]
    · intro hc
      refine hq ?_
      simp [boot] at hc <;> simp [hc]

/-- A stream step is one of `StreamLoop` with handlers set. -/
theorem loop_inv {α : Type} {c : Cfg α} {s s' : St α} (h : Inv s) (e : loop c s = some s') :
    Inv s' ∧ StreamLoop.step c s.pl .loop = some s'.pl := by
  by_cases hc : s.commands = []
  · have ⟨hsongs, hpc⟩ := h.quiet hc
    simp only [loop, hpc] at e
    simp only [loopStep, hpc, hsongs, List.length_nil, if_true, Option.map_some, Option.some.injEq] at e
    subst e
    refine ⟨⟨h.place, fun _ => ⟨rfl, rfl⟩, h.said, h.missed⟩, ?_⟩
    simp [StreamLoop.step, hpc, loopStep, hsongs]
  · obtain ⟨hn, hp⟩ := h.handlers hc
    have key : s' = { s with pl := s'.pl, begun := s'.pl.news } ∧ StreamLoop.step c s.pl .loop = some s'.pl := by
      have hs := h.said
      unfold loop at e
      cases hpc : s.pl.pc <;> simp only [hpc] at e
      case opening song =>
        simp only [StreamLoop.step, hpc, loopStep]
        cases hd : c.dec song <;> simp only [hd, hn, if_true, Option.some.injEq] at e <;> subst e <;> simp [hs, hn]
      case h1 rem =>
        simp only [StreamLoop.step, hpc, loopStep]
        by_cases ht : s.pl.playing = s.pl.playingLast
        · simp only [ht, ne_eq, not_true, if_false, Option.some.injEq] at e
          subst e; simp [ht, ← hs]
        · simp only [ht, ne_eq, not_false_eq_true, if_true, hp, Option.some.injEq] at e
          subst e; simp [ht, hp, ← hs]
      case crashed => simp [loopStep, hpc] at e
      all_goals
        simp only [Option.map_eq_some_iff] at e
        obtain ⟨pl, e1, rfl⟩ := e
        simp only [StreamLoop.step, hpc]
        refine ⟨?_, by simpa [hpc] using e1⟩
        have : pl.news = s.pl.news := by
          simp only [loopStep, hpc] at e1
          first
            | (cases e1; rfl)
            | (split at e1 <;> first
                | (cases e1; rfl)
                | (split at e1 <;> cases e1 <;> rfl))
        simp [this, hs]
    obtain ⟨k1, k2⟩ := key
    refine ⟨?_, k2⟩
    rw [k1]
    exact ⟨h.place, fun hc' => absurd hc' hc, rfl, h.missed⟩

theorem session_inv {α : Type} {c : Cfg α} {s s' : St α} {name : String} {a : StreamLoop.Act} (h : Inv s)
    (ha : a ≠ .loop) (e : session c s name a = some s') : Inv s' ∧ StreamLoop.step c s.pl a = some s'.pl := by
  unfold session at e
  split at e
  case isFalse => cases e
  case isTrue hm =>
    simp only [Option.map_eq_some_iff] at e
    obtain ⟨pl, e1, rfl⟩ := e
    refine ⟨⟨h.place, fun hc => ?_, ?_, h.missed⟩, e1⟩
    · simp only at hc; rw [hc] at hm; cases hm
    · have : pl.news = s.pl.news := by
        unfold StreamLoop.step at e1
        split at e1
        · cases e1
        · cases a <;> simp only at e1
          case loop => exact absurd rfl ha
          case jumpToken => split at e1 <;> cases e1; rfl
          all_goals cases e1; rfl
      simp [this, h.said]

theorem step_inv {α : Type} {c : Cfg α} {s s' : St α} {a : Act} (h : Inv s) (e : step c s a = some s') :
    Inv s' ∧ ((a = .boot ∧ s'.pl = s.pl) ∨ ∃ b, StreamLoop.step c s.pl b = some s'.pl ∧
      ∀ as bs, Same as bs → Same (a :: as) (b :: bs)) := by
  cases a with
  | boot =>
    simp only [step] at e
    split at e
    · cases e
    · rename_i t ts ht
      cases e
      obtain ⟨a, b⟩ := boot_inv h ht
      exact ⟨a, .inl ⟨rfl, b⟩⟩
  | loop =>
    simp only [step] at e
    split at e
    · obtain ⟨a, b⟩ := loop_inv h e
      exact ⟨a, .inr ⟨_, b, fun _ _ => .loop⟩⟩
    · cases e
  | queue x i =>
    cases i with
    | none =>
      simp only [step] at e
      obtain ⟨a, b⟩ := session_inv h (by simp) e
      exact ⟨a, .inr ⟨_, b, fun _ _ => .queue⟩⟩
    | some i =>
      simp only [step] at e
      split at e
      · obtain ⟨a, b⟩ := session_inv h (by simp) e
        exact ⟨a, .inr ⟨_, b, fun _ _ => .queue⟩⟩
      · cases e
  | remove i =>
    simp only [step] at e
    split at e
    · obtain ⟨a, b⟩ := session_inv h (by simp) e
      exact ⟨a, .inr ⟨_, b, fun _ _ => .remove⟩⟩
    · cases e
  | jump p => obtain ⟨a, b⟩ := session_inv h (by simp) e; exact ⟨a, .inr ⟨_, b, fun _ _ => .jump⟩⟩
  | jumpToken => obtain ⟨a, b⟩ := session_inv h (by simp) e; exact ⟨a, .inr ⟨_, b, fun _ _ => .jumpToken⟩⟩
  | pause => obtain ⟨a, b⟩ := session_inv h (by simp) e; exact ⟨a, .inr ⟨_, b, fun _ _ => .pause⟩⟩
  | resume => obtain ⟨a, b⟩ := session_inv h (by simp) e; exact ⟨a, .inr ⟨_, b, fun _ _ => .resume⟩⟩

theorem run_inv {α : Type} {c : Cfg α} (as : List Act) {s s' : St α} (h : Inv s) (e : run c s as = some s') :
    Inv s' ∧ ∃ bs, StreamLoop.run c s.pl bs = some s'.pl ∧ Same as bs := by
  induction as generalizing s with
  | nil => cases e; exact ⟨h, [], rfl, .nil⟩
  | cons a as ih =>
    simp only [run] at e
    split at e
    · rename_i t ht
      obtain ⟨h1, h2⟩ := step_inv h ht
      obtain ⟨i1, bs, i2, i3⟩ := ih h1 e
      refine ⟨i1, ?_⟩
      rcases h2 with ⟨rfl, h2⟩ | ⟨b, h2, h3⟩
      · exact ⟨bs, h2 ▸ i2, .boot i3⟩
      · exact ⟨b :: bs, by simp [StreamLoop.run, h2, i2], h3 _ _ i3⟩
    · cases e

/-- C124: every song whose streaming begins is announced, in order and exactly, and no toggle is noticed without a handler,
whatever sessions and stream do while the server starts. -/
theorem C124_announced {α : Type} (c : Cfg α) (as : List Act) (s : St α) (h : run c init as = some s) :
    s.pl.news = s.begun ∧ s.missed = 0 := by
  obtain ⟨i, _⟩ := run_inv as inv_init h
  exact ⟨i.said.symm, i.missed⟩

/-- C124: the playlist does what it does when both handlers are set before anything happens. -/
theorem C124_as_after_start {α : Type} (c : Cfg α) (as : List Act) (s : St α) (h : run c init as = some s) :
    ∃ bs, StreamLoop.run c (StreamLoop.init []) bs = some s.pl ∧ Same as bs := (run_inv as inv_init h).2

/-- C124: at every moment the commands are the first of those offered; a command being there, both handlers are set and the stream
has been started. -/
theorem C124_commands_in_order {α : Type} (c : Cfg α) (as : List Act) (s : St α) (h : run c init as = some s) :
    s.commands <+: offered ∧ (s.commands ≠ [] → s.running = true ∧ s.newSong = true ∧ s.pauseToggle = true) := by
  obtain ⟨i, _⟩ := run_inv as inv_init h
  obtain ⟨k, _, _, h1, h2, h3, h4⟩ := i.place
  refine ⟨h4 ▸ List.take_prefix _ _, fun hc => ?_⟩
  obtain ⟨a, b⟩ := i.handlers hc
  refine ⟨?_, a, b⟩
  rw [h3] at b; rw [h1]
  simp at *; omega

theorem boots {α : Type} (c : Cfg α) (n : Nat) (s : St α) (h : Inv s) (hn : s.todo.length = n) :
    ∃ s', run c s (List.replicate n .boot) = some s' ∧ s'.todo = [] ∧ s'.pl = s.pl ∧ Inv s' := by
  induction n generalizing s with
  | zero => exact ⟨s, rfl, List.length_eq_zero_iff.mp hn, rfl, h⟩
  | succ n ih =>
    match ht : s.todo with
    | [] => rw [ht] at hn; cases hn
    | t :: ts =>
      rw [ht] at hn
      obtain ⟨a, b⟩ := boot_inv h ht
      have hl : (boot { s with todo := ts } t).todo.length = n := by
        have : (boot { s with todo := ts } t).todo = ts := by cases t <;> rfl
        rw [this]; simpa using hn
      obtain ⟨s', r, d, p, i⟩ := ih _ a hl
      exact ⟨s', by simp [List.replicate_succ, run, step, ht, r], d, p.trans b, i⟩

/-- C124: from every state that can be reached, at most ten further statements of `Server` end the start-up, without a change of
the playlist, and then the stream runs, the handlers are set and each of the commands offered is there once. -/
theorem C124_starts {α : Type} (c : Cfg α) (as : List Act) (s : St α) (h : run c init as = some s) :
    ∃ n s', n ≤ 10 ∧ run c s (List.replicate n .boot) = some s' ∧ s'.todo = [] ∧ s'.pl = s.pl ∧ s'.running = true ∧
      s'.newSong = true ∧ s'.pauseToggle = true ∧ s'.commands = offered := by
  obtain ⟨i, _⟩ := run_inv as inv_init h
  obtain ⟨s', r, d, p, i'⟩ := boots c _ s i rfl
  obtain ⟨k, hk, h0, _⟩ := i.place
  obtain ⟨k', hk', h0', h1, h2, h3, h4⟩ := i'.place
  have : k' = 10 := by
    have := congrArg List.length h0'
    simp [d, server] at this
    omega
  subst this
  refine ⟨_, s', ?_, r, d, p, by simpa using h1, by simpa using h2, by simpa using h3, by simpa [offered] using h4⟩
  rw [h0]; simp [server]

/-! ## Cases -/

/-- A file with three samples. -/
def exCfg : Cfg Nat := { dec := fun x => if x = "a" then some [1, 2, 3] else none, brk := 2 }

/-- While `Server` is still registering: a song is queued, resumed only when that command is there; before, the stream pushes
silence and starts the song. -/
def exRun : List Act :=
  [.boot, .loop, .boot, .boot, .boot, .queue "a" none, .loop, .loop, .boot, .loop, .loop, .boot, .boot, .loop, .loop, .boot,
    .boot, .pause, .boot, .resume, .loop]

theorem ex_run : (run exCfg init exRun).map (fun s => (s.commands, s.pl.news, s.begun, s.pl.pauses.length)) =
    some (offered, [(noSongNan, "a", 3)], [(noSongNan, "a", 3)], 1) := by
  simp [exRun, run, step, init, server, boot, loop, session, StreamLoop.init, StreamLoop.step, loopStep, Playlist.addSong,
    Playlist.goGet, exCfg, offered, -List.reduceReplicate]

/-- A session cannot queue before `Server` has come that far. -/
theorem ex_early : run exCfg init [.boot, .loop, .boot, .boot, .queue "a" none] = none := rfl

end MS.ServerStart
