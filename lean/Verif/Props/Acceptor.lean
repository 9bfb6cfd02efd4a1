import Verif.Model.Acceptor
import Verif.Props.Logging
/-!
# Property C107: clients can connect as long as the server runs
-/
namespace MS.Acceptor
open MS.Sender (Conn)

/-- The connections that are served. -/
def served (evs : List Ev) : List Conn := evs.filterMap fun e => match e with | .serve c => some c | _ => none

/-- The connections clients have made. -/
def made (as : List (Answer × Bool)) : List Conn := as.filterMap fun a => match a.1 with | .conn c => some c | _ => none

theorem served_log (l : List (Logging.Writer × List Char)) : served (l.map fun x => .log x.1 x.2) = [] := by
  simp [served, List.filterMap_map, List.filterMap_eq_nil_iff]

theorem served_step (cut : Logging.Cutoffs) (date : List Char) (c : Conn) (b : Bool) (rest : List (Answer × Bool)) :
    served (acceptor cut date ((.conn c, b) :: rest)) = c :: served (acceptor cut date rest) := by
  cases b <;> simp [acceptor, served]

/-- C107, where it holds: as long as no `Accept` fails every client that connects is served, in order, once. -/
theorem C107_served_partial (cut : Logging.Cutoffs) (date : List Char) (as : List (Answer × Bool))
    (h : ∀ a ∈ as, ∃ c, a.1 = .conn c) : served (acceptor cut date as) = made as := by
  induction as with
  | nil => rfl
  | cons a as ih =>
    obtain ⟨x, b⟩ := a
    obtain ⟨c, hc⟩ := h (x, b) (.head _)
    simp only at hc; subst hc
    rw [served_step, ih (fun a ha => h a (.tail _ ha))]
    simp [made]

/-- C107: the handler for new clients is started once for each of them that connects when it is set, and for no other. -/
theorem C107_greeted (cut : Logging.Cutoffs) (date : List Char) (as : List (Answer × Bool)) (h : ∀ a ∈ as, ∃ c, a.1 = .conn c) :
    (acceptor cut date as).filterMap (fun e => match e with | .greet c => some c | _ => none) = made (as.filter (·.2)) := by
  induction as with
  | nil => rfl
  | cons a as ih =>
    obtain ⟨x, b⟩ := a
    obtain ⟨c, hc⟩ := h (x, b) (.head _)
    simp only at hc; subst hc
    have := ih (fun a ha => h a (.tail _ ha))
    cases b <;> simp [acceptor, made] at this ⊢ <;> simpa [made] using this

/-- C107, where it fails: after one failed `Accept`, for whatever reason, no client that connects later is served. -/
theorem C107_locked_out (cut : Logging.Cutoffs) (date : List Char) (before after : List (Answer × Bool)) (text : List Char)
    (b : Bool) (h : ∀ a ∈ before, ∃ c, a.1 = .conn c) :
    served (acceptor cut date (before ++ (.error text, b) :: after)) = made before := by
  induction before with
  | nil => simp only [List.nil_append, acceptor]; exact served_log _
  | cons a as ih =>
    obtain ⟨x, b⟩ := a
    obtain ⟨c, hc⟩ := h (x, b) (.head _)
    simp only at hc; subst hc
    rw [List.cons_append, served_step, ih (fun a ha => h a (.tail _ ha))]
    simp [made]

/-- C107: by default the failure is reported on the error output, once, with its text; nothing is reported otherwise. -/
theorem C107_reported (date : List Char) (as : List (Answer × Bool)) :
    (acceptor Logging.init date as).filterMap (fun e => match e with | .log w t => some (w, t) | _ => none) =
      match as.find? (fun a => match a.1 with | .error _ => true | _ => false) with
      | some (.error text, _) =>
        [(.error, "[FTL] [comm] ".toList ++ date ++ ": failed to accept connection: ".toList ++ text ++ "\n".toList)]
      | _ => [] := by
  induction as with
  | nil => rfl
  | cons a as ih =>
    obtain ⟨x, b⟩ := a
    cases x with
    | conn c =>
      rw [List.find?_cons_of_neg (by simp)]
      cases b <;> simpa [acceptor] using ih
    | error text =>
      rw [List.find?_cons_of_pos (by rfl)]
      have hl : ∃ t, Logging.log Logging.init "comm".toList ("failed to accept connection: ".toList ++ text) date Logging.fatal =
          [(.error, t)] := ⟨_, rfl⟩
      obtain ⟨t, hl⟩ := hl
      have := Logging.C69_verbatim Logging.init "comm".toList ("failed to accept connection: ".toList ++ text) date
        Logging.fatal .error t (by rw [hl]; simp)
      simp only [acceptor, hl, List.map_cons, List.map_nil, List.filterMap_cons, List.filterMap_nil]
      rw [this]
      simp [Logging.shortName, Logging.namesOf, Logging.levelNames, Logging.fatal, Logging.trace, Logging.debug, Logging.info,
        Logging.warn, Logging.error, List.lookup]

/-- Non-vacuity: two clients, a failure, a third client. -/
example : served (acceptor Logging.init [] [(.conn 1, false), (.conn 2, true), (.error ['e'], true), (.conn 3, true)]) = [1, 2] :=
  C107_locked_out Logging.init [] [(.conn 1, false), (.conn 2, true)] [(.conn 3, true)] ['e'] true (by simp)

end MS.Acceptor
