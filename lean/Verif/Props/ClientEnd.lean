import Verif.Model.ClientEnd
import Verif.Props.Logging
import Verif.Props.Wire
/-!
# Property C106: a client ends when its connection ends, and says so
-/
set_option linter.unusedVariables false
namespace MS.ClientEnd
open MS.Proto MS.Wire MS.Sender

/-- The calls for the messages received. -/
def calls (conn : Conn) (ms : List Msg) : List Call := ms.filterMap (fun m => handle m conn)

/-- What holds of every state reached. `ms` and `fin` are what the connection yields. -/
structure Inv (p : Prog) (cut : Logging.Cutoffs) (conn : Conn) (ms : List Msg) (fin : End) (s : St) : Prop where
  fin_eq : s.fin = fin
  read : ∃ pre, ms = pre ++ s.incoming ∧ (s.started ++ s.ran).Perm (calls conn pre)
  closed : s.closing = true → s.incoming = [] ∧ s.fin = .closed
  printed : (s.closing = false → s.printed = []) ∧
    (s.closing = true → ∃ reason date, s.printed = Logging.log cut "comm".toList reason date Logging.info ++
      Logging.log cut "comm".toList "connection to master closed".toList date Logging.fatal)
  one : s.exit = some 1 → s.closing = true
  two : s.exit = some 2 → s.incoming = [] ∧ s.fin = .crashed
  zero : s.exit = some 0 → s.main = .left
  only : ∀ n, s.exit = some n → n = 0 ∨ n = 1 ∨ n = 2
  screen : s.screen = true ↔ (p = .infoer ∧ s.main ≠ .left)

theorem perm_erase {l : List Call} {i : Nat} {c : Call} (h : l[i]? = some c) (r : List Call) :
    (l.eraseIdx i ++ (r ++ [c])).Perm (l ++ r) := by
  have hi : i < l.length := (List.getElem?_eq_some_iff.mp h).1
  have hc : l[i] = c := (List.getElem?_eq_some_iff.mp h).2
  have h1 : (c :: l.eraseIdx i).Perm l := by
    rw [List.eraseIdx_eq_take_drop_succ]
    have h2 : l = l.take i ++ c :: l.drop (i + 1) := by
      rw [← hc, ← List.drop_eq_getElem_cons hi, List.take_append_drop]
    conv => rhs; rw [h2]
    exact List.perm_middle.symm
  rw [← List.append_assoc]
  refine (List.perm_append_comm).trans ?_
  simp only [List.singleton_append]
  have := h1.append_right r
  simpa using this

theorem inv_step {p : Prog} {cut : Logging.Cutoffs} {conn : Conn} {ms : List Msg} {fin : End} {s : St} {a : Act}
    (h : Inv p cut conn ms fin s) : Inv p cut conn ms fin (step p cut conn s a) := by
  unfold step
  split
  · exact h
  · next he =>
    have hn : s.exit = none := by
      cases hx : s.exit with
      | none => rfl
      | some n => simp [hx] at he
    cases a with
    | reader reason date =>
      simp only [reader]
      split
      · next m rest hm =>
        obtain ⟨pre, e, hp⟩ := h.read
        refine { h with
          read := ⟨pre ++ [m], by rw [e, hm]; simp, ?_⟩
          closed := fun hc => by have := (h.closed hc).1; rw [hm] at this; simp at this
          two := fun e2 => by simp [hn] at e2 }
        simp only [calls, List.filterMap_append]
        have h1 : (s.started ++ (handle m conn).toList ++ s.ran).Perm (s.started ++ s.ran ++ (handle m conn).toList) := by
          rw [List.append_assoc, List.append_assoc]
          exact List.Perm.append_left _ List.perm_append_comm
        refine h1.trans ?_
        have h2 : List.filterMap (fun m => handle m conn) [m] = (handle m conn).toList := by
          cases hh : handle m conn <;> simp [hh]
        rw [h2]
        exact hp.append_right _
      · next hm =>
        split
        · next hc =>
          exact { h with one := fun _ => hc, two := fun e => by simp at e, zero := fun e => by simp at e,
                         only := fun n e => by simp at e; omega }
        · next hc =>
          have hc' : s.closing = false := by simpa using hc
          split
          · next hf =>
            exact { h with one := fun e => by simp at e, two := fun _ => ⟨hm, hf⟩, zero := fun e => by simp at e,
                           only := fun n e => by simp at e; omega }
          · next hf =>
            refine { h with closed := fun _ => ⟨hm, hf⟩, printed := ⟨by simp, fun _ => ⟨reason, date, ?_⟩⟩, one := fun _ => rfl,
                            two := fun e => by simp [hn] at e }
            simp only [h.printed.1 hc', List.nil_append]
    | handler i =>
      simp only
      split
      · next c hc =>
        obtain ⟨pre, e, hp⟩ := h.read
        exact { h with read := ⟨pre, e, (perm_erase hc s.ran).trans hp⟩ }
      · exact h
    | user =>
      have hs := h.screen
      cases hm : s.main with
      | waiting =>
        cases p with
        | player =>
          exact { h with zero := fun e => by simp [hn] at e, screen := by rw [hm] at hs; simpa using hs }
        | infoer =>
          exact { h with zero := fun e => by simp [hn] at e, screen := by rw [hm] at hs; simpa using hs }
      | told => simp only; exact h
      | left => simp only; exact h
    | tick =>
      simp only
      split
      · exact { h with zero := fun e => by simp [hn] at e, screen := by simp }
      · exact h
    | main =>
      simp only
      split
      · next hm =>
        exact { h with one := fun e => by simp at e, two := fun e => by simp at e, zero := fun _ => hm,
                       only := fun n e => by simp at e; omega }
      · exact h

theorem inv_run {p : Prog} {cut : Logging.Cutoffs} {conn : Conn} (z : Zlib) (maxAlloc : Nat) (segs : List Bytes)
    (acts : List Act) :
    Inv p cut conn (handleConnection z maxAlloc segs).1 (handleConnection z maxAlloc segs).2
      (run p cut conn (start p z maxAlloc segs) acts) := by
  have key : ∀ (acts : List Act) (s : St), Inv p cut conn (handleConnection z maxAlloc segs).1 (handleConnection z maxAlloc segs).2 s →
      Inv p cut conn (handleConnection z maxAlloc segs).1 (handleConnection z maxAlloc segs).2 (run p cut conn s acts) := by
    intro acts
    induction acts with
    | nil => intro s h; exact h
    | cons a as ih => intro s h; exact ih _ (inv_step h)
  refine key acts _ ?_
  exact { fin_eq := rfl, read := ⟨[], rfl, by simp [start, calls]⟩, closed := by simp [start], printed := by simp [start],
          one := by simp [start], two := by simp [start], zero := by simp [start], only := by simp [start],
          screen := by cases p <;> simp [start] }

/-- C106, the status a client ends with, for every way the data arrive and every schedule: 1 only after the connection has
ended, with every message received handed over; 2 only after data of the kind C25 names; 0 only after the user has ended it;
nothing else. At every moment each message received has been handed to its handler once, or is still to be read. -/
theorem C106_status (p : Prog) (cut : Logging.Cutoffs) (conn : Conn) (z : Zlib) (maxAlloc : Nat) (segs : List Bytes)
    (acts : List Act) (s : St) (h : s = run p cut conn (start p z maxAlloc segs) acts) :
    (∃ pre, (handleConnection z maxAlloc segs).1 = pre ++ s.incoming ∧ (s.started ++ s.ran).Perm (calls conn pre)) ∧
    (s.exit = some 1 → (handleConnection z maxAlloc segs).2 = .closed ∧
      (s.started ++ s.ran).Perm (calls conn (handleConnection z maxAlloc segs).1)) ∧
    (s.exit = some 2 → (handleConnection z maxAlloc segs).2 = .crashed) ∧
    (∀ n, s.exit = some n → n = 0 ∨ n = 1 ∨ n = 2) := by
  have hi := inv_run (p := p) (cut := cut) (conn := conn) z maxAlloc segs acts
  rw [← h] at hi
  refine ⟨hi.read, fun e => ?_, fun e => ?_, hi.only⟩
  · obtain ⟨h1, h2⟩ := hi.closed (hi.one e)
    obtain ⟨pre, e1, e2⟩ := hi.read
    rw [h1, List.append_nil] at e1
    exact ⟨by rw [← hi.fin_eq]; exact h2, by rw [e1]; exact e2⟩
  · rw [← hi.fin_eq]; exact (hi.two e).2

/-- The user has pressed Ctrl-C. -/
def Pressed (acts : List Act) : Prop := Act.user ∈ acts

theorem waiting_run (p : Prog) (cut : Logging.Cutoffs) (conn : Conn) (acts : List Act) (hu : ¬ Pressed acts) :
    ∀ s : St, s.main = .waiting → s.exit ≠ some 0 →
      (run p cut conn s acts).main = .waiting ∧ (run p cut conn s acts).exit ≠ some 0 := by
  induction acts with
  | nil => intro s h1 h2; exact ⟨h1, h2⟩
  | cons a as ih =>
    intro s h1 h2
    have hu' : ¬ Pressed as := fun h => hu (.tail _ h)
    refine ih hu' (step p cut conn s a) ?_ ?_
    · unfold step
      split
      · exact h1
      · cases a with
        | user => exact absurd (.head _) hu
        | reader r d => simp only [reader]; repeat' split
                        all_goals exact h1
        | handler i => simp only; split <;> exact h1
        | tick => simp [h1]
        | main => simp [h1]
    · unfold step
      split
      · exact h2
      · cases a with
        | user => exact absurd (.head _) hu
        | reader r d => simp only [reader]; repeat' split
                        all_goals first | exact h2 | simp
        | handler i => simp only; split <;> exact h2
        | tick => simp only [h1]; exact h2
        | main => simp only [h1]; exact h2

/-- C106: a client on which nobody presses Ctrl-C does not end with status 0. -/
theorem C106_stays (p : Prog) (cut : Logging.Cutoffs) (conn : Conn) (z : Zlib) (maxAlloc : Nat) (segs : List Bytes)
    (acts : List Act) (hu : ¬ Pressed acts) : (run p cut conn (start p z maxAlloc segs) acts).exit ≠ some 0 :=
  (waiting_run p cut conn acts hu (start p z maxAlloc segs) rfl (by simp [start])).2

/-- Steps of the reading goroutine in a schedule. -/
def reads (acts : List Act) : Nat := acts.countP (fun a => match a with | .reader _ _ => true | _ => false)

/-- Steps the reader still has to make. -/
def left (s : St) : Nat := s.incoming.length + (if s.closing then 1 else 2)

theorem left_step (p : Prog) (cut : Logging.Cutoffs) (conn : Conn) (s : St) (a : Act) :
    (step p cut conn s a).exit.isSome ∨ left (step p cut conn s a) + reads [a] ≤ left s := by
  unfold step
  split
  · next h => left; exact h
  · cases a with
    | reader r d =>
      simp only [reader]
      split
      · next m ms hm => right; simp [left, reads, hm]; omega
      · next hm =>
        split
        · left; rfl
        · next hc =>
          split
          · left; rfl
          · right; simp [left, reads, hc]
    | handler i => right; simp only; split <;> simp [left, reads]
    | user => right; simp only; split <;> simp [left, reads]
    | tick => right; simp only; split <;> simp [left, reads]
    | main =>
      simp only
      split
      · left; rfl
      · right; simp [left, reads]

theorem exit_run (p : Prog) (cut : Logging.Cutoffs) (conn : Conn) (acts : List Act) : ∀ s : St, s.exit.isSome →
    run p cut conn s acts = s := by
  induction acts with
  | nil => intro s _; rfl
  | cons a as ih =>
    intro s h
    have : step p cut conn s a = s := by unfold step; rw [if_pos h]
    show run p cut conn (step p cut conn s a) as = s
    rw [this]; exact ih s h

/-- C106: once the connection has ended, every client ends: after as many steps of the reading goroutine as there are
messages left, and two more, whatever else happens in between. -/
theorem C106_ends (p : Prog) (cut : Logging.Cutoffs) (conn : Conn) (z : Zlib) (maxAlloc : Nat) (segs : List Bytes)
    (acts : List Act) (hn : (handleConnection z maxAlloc segs).1.length + 2 ≤ reads acts) :
    (run p cut conn (start p z maxAlloc segs) acts).exit.isSome := by
  have key : ∀ (acts : List Act) (s : St), s.exit.isSome ∨ left s ≤ reads acts → (run p cut conn s acts).exit.isSome := by
    intro acts
    induction acts with
    | nil =>
      intro s h
      rcases h with h | h
      · exact h
      · have : 1 ≤ left s := by unfold left; split <;> omega
        simp [reads] at h; omega
    | cons a as ih =>
      intro s h
      rcases h with h | h
      · rw [exit_run p cut conn (a :: as) s h]; exact h
      · refine ih _ ?_
        rcases left_step p cut conn s a with h1 | h1
        · exact .inl h1
        · right
          have : reads (a :: as) = reads [a] + reads as := by
            unfold reads; rw [← List.countP_append]; rfl
          omega
  refine key acts _ (.inr ?_)
  simpa [left, start] using hn

/-- C106: a player that is started without logging options says on its error output why it ends. -/
theorem C106_player_says_so (byName : List Char → Int) (conn : Conn) (z : Zlib) (maxAlloc : Nat) (segs : List Bytes)
    (acts : List Act) (s : St)
    (h : s = run .player (cutoffs byName (fun _ => []) .player) conn (start .player z maxAlloc segs) acts)
    (he : s.exit = some 1) :
    ∃ date, (Logging.Writer.error, "[FTL] [comm] ".toList ++ date ++ ": connection to master closed\n".toList) ∈ s.printed := by
  have hi := inv_run (p := .player) (cut := cutoffs byName (fun _ => []) .player) (conn := conn) z maxAlloc segs acts
  rw [← h] at hi
  obtain ⟨reason, date, e⟩ := hi.printed.2 (hi.one he)
  refine ⟨date, ?_⟩
  rw [e]
  refine List.mem_append_right _ ?_
  have hcut : cutoffs byName (fun _ => []) .player = Logging.init := by
    simp [cutoffs, Logging.handleFlags, Logging.loggingFlags]
  have hl : ∃ text, Logging.log (cutoffs byName (fun _ => []) .player) "comm".toList "connection to master closed".toList date
      Logging.fatal = [(.error, text)] := by
    rw [hcut]
    exact ⟨_, rfl⟩
  obtain ⟨text, hl⟩ := hl
  have := Logging.C69_verbatim (cutoffs byName (fun _ => []) .player) "comm".toList "connection to master closed".toList date
    Logging.fatal .error text (by rw [hl]; simp)
  rw [hl, this]
  simp [Logging.shortName, Logging.namesOf, Logging.levelNames, Logging.fatal, Logging.trace, Logging.debug, Logging.info,
    Logging.warn, Logging.error, List.lookup]

/-- C106, where it fails: the infoer never says anything, and when its connection ends while nobody has pressed Ctrl-C it
leaves the terminal as tcell set it up. -/
theorem C106_infoer_silent (byName : List Char → Int) (flags : List Char → List Char) (conn : Conn) (z : Zlib)
    (maxAlloc : Nat) (segs : List Bytes) (acts : List Act) (s : St)
    (h : s = run .infoer (cutoffs byName flags .infoer) conn (start .infoer z maxAlloc segs) acts) :
    s.printed = [] ∧ (¬ Pressed acts → s.screen = true) ∧ (s.exit = some 0 → s.screen = false) := by
  have hi := inv_run (p := .infoer) (cut := cutoffs byName flags .infoer) (conn := conn) z maxAlloc segs acts
  rw [← h] at hi
  refine ⟨?_, fun hu => ?_, fun e => ?_⟩
  · cases hc : s.closing with
    | false => exact hi.printed.1 hc
    | true =>
      obtain ⟨reason, date, e⟩ := hi.printed.2 hc
      rw [e]; rfl
  · rw [hi.screen, h]
    refine ⟨rfl, ?_⟩
    rw [(waiting_run .infoer _ conn acts hu (start .infoer z maxAlloc segs) rfl (by simp [start])).1]
    simp
  · cases hs : s.screen with
    | false => rfl
    | true => exact absurd (hi.zero e) (hi.screen.1 hs).2

/-- C106, where it fails: messages that arrived before the connection ended may have no effect at all, however many they
are. -/
theorem C106_received_unhandled (p : Prog) (cut : Logging.Cutoffs) (conn : Conn) (z : Zlib) (maxAlloc : Nat)
    (segs : List Bytes) (hf : (handleConnection z maxAlloc segs).2 = .closed) :
    ∃ acts, (run p cut conn (start p z maxAlloc segs) acts).exit = some 1 ∧
      (run p cut conn (start p z maxAlloc segs) acts).ran = [] := by
  have key : ∀ (n : Nat) (s : St), s.incoming.length = n → s.fin = .closed → s.closing = false → s.exit = none → s.ran = [] →
      ∃ acts, (run p cut conn s acts).exit = some 1 ∧ (run p cut conn s acts).ran = [] := by
    intro n
    induction n with
    | zero =>
      intro s h1 h2 h3 h4 h5
      have h1' : s.incoming = [] := List.length_eq_zero_iff.mp h1
      refine ⟨[.reader [] [], .reader [] []], ?_, ?_⟩ <;>
        simp [run, step, reader, h1', h2, h3, h4, h5]
    | succ n ih =>
      intro s h1 h2 h3 h4 h5
      cases hm : s.incoming with
      | nil => rw [hm] at h1; simp at h1
      | cons m ms =>
        rw [hm] at h1
        obtain ⟨acts, a1, a2⟩ := ih { s with incoming := ms, started := s.started ++ (handle m conn).toList }
          (by simpa using h1) h2 h3 h4 h5
        have e : step p cut conn s (.reader [] []) = { s with incoming := ms, started := s.started ++ (handle m conn).toList } := by
          simp [step, reader, hm, h4]
        refine ⟨.reader [] [] :: acts, ?_, ?_⟩
        · show (run p cut conn (step p cut conn s (.reader [] [])) acts).exit = some 1
          rw [e]; exact a1
        · show (run p cut conn (step p cut conn s (.reader [] [])) acts).ran = []
          rw [e]; exact a2
  exact key _ (start p z maxAlloc segs) rfl hf rfl rfl rfl

/-- How far the main goroutine has got. -/
def stage : Main → Nat
  | .waiting => 0
  | .told => 1
  | .left => 2

theorem stage_step (p : Prog) (cut : Logging.Cutoffs) (conn : Conn) (s : St) (a : Act) :
    stage s.main ≤ stage (step p cut conn s a).main := by
  unfold step
  split
  · exact Nat.le_refl _
  · cases a with
    | reader r d =>
      simp only [reader]
      repeat' split
      all_goals exact Nat.le_refl _
    | handler i => simp only; split <;> exact Nat.le_refl _
    | user =>
      simp only
      split
      · next h => rw [h]; exact Nat.zero_le _
      · next h => rw [h]; exact Nat.zero_le _
      · exact Nat.le_refl _
    | tick =>
      simp only
      split
      · next h => rw [h]; exact Nat.le_succ 1
      · exact Nat.le_refl _
    | main => simp only; split <;> exact Nat.le_refl _

theorem stage_run (p : Prog) (cut : Logging.Cutoffs) (conn : Conn) (acts : List Act) : ∀ s : St,
    stage s.main ≤ stage (run p cut conn s acts).main := by
  induction acts with
  | nil => intro s; exact Nat.le_refl _
  | cons a as ih => intro s; exact Nat.le_trans (stage_step p cut conn s a) (ih (step p cut conn s a))

theorem run_append (p : Prog) (cut : Logging.Cutoffs) (conn : Conn) (s : St) (a b : List Act) :
    run p cut conn s (a ++ b) = run p cut conn (run p cut conn s a) b := by
  simp [run, List.foldl_append]

theorem left_main (p : Prog) (cut : Logging.Cutoffs) (conn : Conn) (s : St) (h : 2 ≤ stage s.main) (hn : s.exit = none) :
    (step p cut conn s .main).exit = some 0 := by
  have hl : s.main = .left := by cases hm : s.main <;> simp [hm, stage] at h ⊢
  simp [step, hn, hl]

theorem exit_mono (p : Prog) (cut : Logging.Cutoffs) (conn : Conn) (s : St) (acts : List Act)
    (h : (run p cut conn s acts).exit = none) : s.exit = none := by
  cases hx : s.exit with
  | none => rfl
  | some n =>
    rw [exit_run p cut conn acts s (by simp [hx])] at h
    rw [h] at hx; exact absurd hx (by simp)

theorem player_not_told (cut : Logging.Cutoffs) (conn : Conn) (acts : List Act) : ∀ s : St, s.main ≠ .told →
    (run .player cut conn s acts).main ≠ .told := by
  induction acts with
  | nil => intro s h; exact h
  | cons a as ih =>
    intro s h
    refine ih (step .player cut conn s a) ?_
    unfold step
    split
    · exact h
    · cases a with
      | reader r d =>
        simp only [reader]
        repeat' split
        all_goals exact h
      | handler i => simp only; split <;> exact h
      | user => simp only; split <;> first | exact h | contradiction | simp
      | tick => simp only; first | exact h | (split <;> first | exact h | contradiction)
      | main => simp only; split <;> exact h

/-- C106: Ctrl-C ends the player with status 0, as soon as its main function is scheduled again, whatever else happens in
between, unless it has ended already. -/
theorem C106_quit_player (cut : Logging.Cutoffs) (conn : Conn) (z : Zlib) (maxAlloc : Nat) (segs : List Bytes)
    (before between : List Act) (s : St)
    (h : s = run .player cut conn (start .player z maxAlloc segs) (before ++ .user :: between)) (he : s.exit = none) :
    (step .player cut conn s .main).exit = some 0 := by
  refine left_main _ _ _ s ?_ he
  subst h
  rw [run_append] at he ⊢
  have e0 := exit_mono _ _ _ _ _ he
  have ht := player_not_told cut conn before (start .player z maxAlloc segs) (by simp [start])
  generalize run .player cut conn (start .player z maxAlloc segs) before = s0 at *
  refine Nat.le_trans ?_ (stage_run .player cut conn between (step .player cut conn s0 .user))
  cases hm : s0.main
  · simp [step, e0, hm, stage]
  · exact absurd hm ht
  · simp [step, e0, hm, stage]

/-- C106: Ctrl-C ends the infoer with status 0, as soon as a tick and its main function have been scheduled, and the terminal
has been given back then. -/
theorem C106_quit_infoer (cut : Logging.Cutoffs) (conn : Conn) (z : Zlib) (maxAlloc : Nat) (segs : List Bytes)
    (before between between' : List Act) (s : St)
    (h : s = run .infoer cut conn (start .infoer z maxAlloc segs) (before ++ .user :: (between ++ .tick :: between')))
    (he : s.exit = none) :
    (step .infoer cut conn s .main).exit = some 0 ∧ (step .infoer cut conn s .main).screen = false := by
  have key : 2 ≤ stage s.main := by
    subst h
    rw [run_append] at he ⊢
    have e0 := exit_mono _ _ _ _ _ he
    generalize run .infoer cut conn (start .infoer z maxAlloc segs) before = s0 at *
    have e1 : run .infoer cut conn s0 (.user :: (between ++ .tick :: between')) =
        run .infoer cut conn (run .infoer cut conn (step .infoer cut conn s0 .user) between) (.tick :: between') := by
      show run .infoer cut conn (step .infoer cut conn s0 .user) (between ++ .tick :: between') = _
      rw [run_append]
    rw [e1] at he ⊢
    have h1 : 1 ≤ stage (step .infoer cut conn s0 .user).main := by
      cases hm : s0.main <;> simp [step, e0, hm, stage]
    have h2 := Nat.le_trans h1 (stage_run .infoer cut conn between (step .infoer cut conn s0 .user))
    have e2 := exit_mono _ _ _ _ _ he
    generalize run .infoer cut conn (step .infoer cut conn s0 .user) between = s1 at *
    refine Nat.le_trans ?_ (stage_run .infoer cut conn between' (step .infoer cut conn s1 .tick))
    cases hm : s1.main <;> simp [step, e2, hm, stage] at h2 ⊢
  refine ⟨left_main _ _ _ s key he, ?_⟩
  have hi := inv_step (a := .main) (inv_run (p := .infoer) (cut := cut) (conn := conn) z maxAlloc segs
    (before ++ .user :: (between ++ .tick :: between')))
  rw [← h] at hi
  have hz := hi.zero (left_main _ _ _ s key he)
  cases hsc : (step .infoer cut conn s .main).screen with
  | false => rfl
  | true => exact absurd hz (hi.screen.1 hsc).2

/-- Non-vacuity: nothing arrives, the user presses Ctrl-C, and the connection ends before the main function goes on. -/
example (cut : Logging.Cutoffs) (conn : Conn) (z : Zlib) :
    (run .player cut conn (start .player z 1000 [[1, 2], [3]]) ([] ++ .user :: [.reader [] []])).exit = none ∧
    (run .infoer cut conn (start .infoer z 1000 [[1, 2], [3]]) ([] ++ .user :: ([.reader [] []] ++ .tick :: []))).exit = none := by
  have h : handleConnection z 1000 [[1, 2], [3]] = ([], .closed) := by
    have := C26_incomplete_frame z 1000 (by decide) [] [] .nil [1, 2, 3] (by left; decide) [[1, 2], [3]] rfl
    exact this
  constructor <;> simp [run, start, h, step, reader]

/-- Non-vacuity: data that end in the middle of a message (C26) end the client. -/
example (p : Prog) (cut : Logging.Cutoffs) (conn : Conn) (z : Zlib) :
    (run p cut conn (start p z 1000 [[1, 2], [3]]) [.reader [] [], .user, .reader [] []]).exit = some 1 := by
  have h : handleConnection z 1000 [[1, 2], [3]] = ([], .closed) := by
    have := C26_incomplete_frame z 1000 (by decide) [] [] .nil [1, 2, 3] (by left; decide) [[1, 2], [3]] rfl
    exact this
  cases p <;> simp [run, start, h, step, reader]

end MS.ClientEnd
