import Verif.Lemmas.SampleQueue
/-!
# Properties C01 - C04: the player's sample buffer (playback/timed_sample_queue.go)

Executions are arbitrary schedules `acts` accepted by `run` from the freshly created queue. The observables used in
the statements are the arguments of the `Add` calls in the schedule (`addArgs acts`), the results `rets` of the
returned `Remove` calls and the results `peeks` of `Peek` calls (each with the number of removals returned before
it).
-/
namespace MS.SampleQueue

variable {α : Type}

/-- Specification: the arguments of the `Add` calls made in a schedule, in order. -/
def addArgs : List (Act α) → List α
  | [] => []
  | .callAdd x :: as => x :: addArgs as
  | _ :: as => addArgs as

theorem calls_eq {s s' : State α} {acts : List (Act α)} (h : run s acts = some s') :
    s'.calls = s.calls ++ addArgs acts := by
  induction acts generalizing s with
  | nil => simp [run] at h; subst h; simp [addArgs]
  | cons a as ih =>
    simp only [run] at h
    split at h
    · rename_i s1 h1
      rw [ih h]
      cases a with
      | callAdd x =>
        simp only [step] at h1
        split at h1 <;> simp at h1
        subst h1
        simp [addArgs]
      | callRemove => simp only [step] at h1; split at h1 <;> simp at h1; subst h1; simp [addArgs]
      | callPeek => simp only [step] at h1; split at h1 <;> simp at h1; subst h1; simp [addArgs]
      | stepA =>
        have : s1.calls = s.calls := by
          simp only [step] at h1
          grind
        simp [addArgs, this]
      | stepR =>
        have : s1.calls = s.calls := by
          simp only [step] at h1
          grind
        simp [addArgs, this]
    · simp at h

theorem inv_run {cap : Nat} {zero : α} {acts : List (Act α)} {s : State α} (hc : 1 ≤ cap)
    (h : run (init cap zero) acts = some s) : Inv s :=
  run_induct (P := Inv) (fun _ _ _ hi hs => inv_step hi hs) (inv_init cap zero hc) h

theorem cap_run {cap : Nat} {zero : α} {acts : List (Act α)} {s : State α}
    (h : run (init cap zero) acts = some s) : s.cap = cap :=
  run_induct (P := fun s => s.cap = cap) (fun _ _ _ hi hs => (step_cap hs).trans hi) rfl h

theorem linv_run {cap : Nat} {zero : α} {acts : List (Act α)} {s : State α} (hc : 2 ≤ cap)
    (h : run (init cap zero) acts = some s) : LInv s := by
  have : Inv s ∧ LInv s ∧ s.cap = cap :=
    run_induct (P := fun s => Inv s ∧ LInv s ∧ s.cap = cap)
      (fun s s' act hi hs => ⟨inv_step hi.1 hs, linv_step (by rw [hi.2.2]; exact hc) hi.1 hi.2.1 hs,
        (step_cap hs).trans hi.2.2⟩)
      ⟨inv_init cap zero (by omega), linv_init cap zero, rfl⟩ h
  exact this.2.1

/-- C01. Under every interleaving, the values returned by `Remove` are a prefix of the values passed to `Add`
(same values, same order, each once), and every `Peek` that ran after `n` removals returned the `n`-th added value,
i.e. the one the next `Remove` returns. -/
theorem C01_fifo (cap : Nat) (hc : 1 ≤ cap) (zero : α) (acts : List (Act α)) (s : State α)
    (h : run (init cap zero) acts = some s) :
    s.rets <+: addArgs acts ∧ ∀ p ∈ s.peeks, (addArgs acts)[p.1]? = some p.2 := by
  have hi := inv_run hc h
  have hcalls := calls_eq h
  simp only [init, List.nil_append] at hcalls
  rw [← hcalls]
  exact ⟨hi.rets, hi.peeks⟩

/-- C01, second half. Peek agrees with the Remove that follows it, whenever that one has returned. -/
theorem C01_peek_is_next_remove (cap : Nat) (hc : 1 ≤ cap) (zero : α) (acts : List (Act α)) (s : State α)
    (h : run (init cap zero) acts = some s) (p : Nat × α) (hp : p ∈ s.peeks) (hlt : p.1 < s.rets.length) :
    s.rets[p.1]? = some p.2 := by
  obtain ⟨⟨t, ht⟩, hpk⟩ := C01_fifo cap hc zero acts s h
  have := hpk p hp
  rw [← ht, List.getElem?_append_left hlt] at this
  exact this

/-- C01, third part. Never more than `cap` samples are buffered, and no buffered sample has been overwritten: the
`i`-th added sample sits unchanged in its ring slot from its Add's index update until its Remove's index update
(in particular whenever its Add has returned and fewer than `i` Removes have). -/
theorem C01_no_overflow (cap : Nat) (hc : 1 ≤ cap) (zero : α) (acts : List (Act α)) (s : State α)
    (h : run (init cap zero) acts = some s) :
    len s.cap s.head s.tail ≤ cap ∧
    (∀ i, s.rets.length < i → i < s.doneA → (addArgs acts)[i]? = some (s.buf (i % cap))) ∧
    (s.r = .idle → s.a = .idle → ∀ i, s.rets.length ≤ i → i < (addArgs acts).length →
      (addArgs acts)[i]? = some (s.buf (i % cap))) := by
  have hi := inv_run hc h
  have hcap := cap_run h
  have hcalls := calls_eq h
  simp only [init, List.nil_append] at hcalls
  obtain ⟨h1, h2, h3, h4, h5, ⟨pre, h6, h7⟩, h8, _⟩ := hi
  have hr : cntR s.r s.rets ≤ s.rets.length + 1 := by unfold cntR; split <;> omega
  have ha : s.doneA ≤ cntA s.a s.doneA := by unfold cntA; split <;> omega
  refine ⟨?_, ?_, ?_⟩
  · rw [h4, h5, len_eq h1 h2 h3]; omega
  · intro i h1 h2'
    rw [← hcalls, ← hcap]
    exact h8 i (by omega) (by omega)
  · intro hr0 ha0 i hi1 hi2
    rw [← hcalls, ← hcap]
    rw [← hcalls, h6, ha0] at hi2
    rw [ha0] at h7
    refine h8 i (by rw [hr0]; exact hi1) (by rw [ha0]; simp [pend] at hi2; omega)

/-- C02. With the capacity the player uses (`initStreamer`, playback/playback.go:110: twice the sample rate, so at
least 2) it never happens that both sides are blocked: if an Add and a Remove/Peek are both in progress, one of the
two goroutines can take a step. -/
theorem C02_never_both_blocked (cap : Nat) (hc : 2 ≤ cap) (zero : α) (acts : List (Act α)) (s : State α)
    (h : run (init cap zero) acts = some s) (ha : s.a ≠ .idle) (hr : s.r ≠ .idle) :
    (step s .stepA).isSome ∨ (step s .stepR).isSome := by
  have hl := linv_run hc h
  obtain ⟨cap', buf, head, tail, owner, a, r, calls, doneA, rets, peeks⟩ := s
  obtain ⟨l1, l2, l3, l4, l5, l6, l7⟩ := hl
  simp only at *
  cases a <;> (try (simp at ha; done))
  case check x => left; simp only [step]; split <;> rfl
  case presleep x => left; rfl
  case write x => left; rfl
  case incr x => left; rfl
  case bcast => left; rfl
  all_goals
    cases r <;> (try (simp at hr; done))
    case check k => right; simp only [step]; split <;> rfl
    case presleep k => right; rfl
    case read k => right; cases k <;> rfl
    case incr v => right; rfl
    case bcast v => right; rfl
    all_goals
      (try simp at l1 l2 l7)
      (try cases owner <;> simp_all [step])

/-- C02, in the words of the property: never is an Add asleep while a Remove/Peek is asleep. -/
theorem C02_never_both_asleep (cap : Nat) (hc : 2 ≤ cap) (zero : α) (acts : List (Act α)) (s : State α)
    (h : run (init cap zero) acts = some s) :
    ¬ ((∃ x, s.a = .asleep x) ∧ (∃ k, s.r = .asleep k)) := by
  rintro ⟨⟨x, hx⟩, ⟨k, hk⟩⟩
  exact (linv_run hc h).excl ⟨⟨x, Or.inr hx⟩, ⟨k, Or.inr hk⟩⟩

/-- The deadlocking schedule for capacity 1: the remover sees an empty queue, the adder fills it and broadcasts
before the remover sleeps, then the next adder sees a full queue and sleeps. -/
def deadlockTrace : List (Act Nat) :=
  [.callAdd 7, .stepA, .stepA,            -- lock, not full
   .callRemove, .stepR, .stepR,           -- lock, empty -> about to sleep
   .stepA, .stepA, .stepA,                -- slot, index, broadcast (wakes nobody): Add(7) returns
   .stepR,                                -- the remover falls asleep
   .callAdd 8, .stepA, .stepA, .stepA]    -- full -> asleep

/-- C02 fails for capacity 1: the hypothesis `2 ≤ cap` above is needed. Both goroutines are asleep, so neither can
ever take a step again, although the buffer holds a sample. -/
theorem C02_capacity_one_deadlocks :
    ∃ s, run (init 1 0) deadlockTrace = some s ∧ s.a = .asleep 8 ∧ s.r = .asleep .remove ∧
      len s.cap s.head s.tail = 1 ∧ step s .stepA = none ∧ step s .stepR = none := by
  refine ⟨_, rfl, rfl, rfl, rfl, rfl, rfl⟩

/-- The lost wake-up schedule. -/
def lostTrace : List (Act Nat) :=
  [.callAdd 7, .stepA, .stepA, .callRemove, .stepR, .stepR, .stepA, .stepA, .stepA, .stepR]

theorem asleep_stays {s s' : State α} {acts : List (Act α)} {k : Kind} (hk : s.r = .asleep k) (ha : s.a = .idle)
    (hno : addArgs acts = []) (h : run s acts = some s') : s' = s := by
  induction acts generalizing s with
  | nil => simp [run] at h; exact h.symm
  | cons act as ih =>
    have hstep : step s act = none := by
      cases act <;> simp [step, hk, ha] <;> simp [addArgs] at hno
    simp [run, hstep] at h

/-- C03 is false for every capacity: there is a schedule after which an Add has returned and its sample is in the
buffer, but the Remove that was called is asleep and stays asleep in every continuation without another Add. -/
theorem C03_lost_wakeup (cap : Nat) (hc : 1 ≤ cap) :
    ∃ s, run (init cap 0) lostTrace = some s ∧ s.doneA = 1 ∧ s.rets = [] ∧ len s.cap s.head s.tail = 1 ∧
      ∀ acts s', addArgs acts = [] → run s acts = some s' → s'.r = .asleep .remove ∧ s'.rets = [] := by
  have hfull : full cap 0 0 = false := by
    have := full_iff (cap := cap) (nA := 0) (nR := 0) hc (by omega) (by omega)
    simp only [Nat.zero_mod] at this
    refine Bool.eq_false_iff.2 (fun hne => ?_)
    have := this.1 hne
    omega
  have hr : run (init cap 0) lostTrace = some
      { cap, buf := fun i => if i = 0 % cap then 7 else 0, head := inc cap 0, tail := 0, owner := .none, a := .idle,
        r := .asleep .remove, calls := [7], doneA := 1, rets := [], peeks := [] } := by
    simp [lostTrace, run, step, init, hfull, empty, wakeR]
  refine ⟨_, hr, rfl, rfl, ?_, ?_⟩
  · have := len_eq (cap := cap) (nA := 1) (nR := 0) hc (by omega) (by omega)
    simp only [Nat.zero_mod] at this
    have hinc : inc cap 0 = 1 % (2 * cap) := by simp [inc]
    simp only [hinc, this]
    rfl
  · intro acts s' hno h
    have := asleep_stays (k := .remove) rfl rfl hno h
    rw [this]
    exact ⟨rfl, rfl⟩

/-- C03, the part that holds: an Add that returns while a Remove/Peek sleeps wakes it. Missing from the full
property: an Add whose broadcast happens between the sleeper's emptiness check and its sleep (`C03_lost_wakeup`). -/
theorem C03_add_wakes_partial (s s' : State α) (acts : List (Act α)) (k : Kind) (hk : s.r = .asleep k)
    (hno : Act.stepR ∉ acts) (h : run s acts = some s') (hdone : s.doneA < s'.doneA) : s'.r = .lock k := by
  have key : ∀ (acts : List (Act α)) (s : State α), Act.stepR ∉ acts → run s acts = some s' →
      (s.r = .lock k → s'.r = .lock k) ∧ (s.r = .asleep k → s.doneA < s'.doneA → s'.r = .lock k) := by
    intro acts
    induction acts with
    | nil =>
      intro s _ h
      simp [run] at h; subst h
      exact ⟨id, fun _ hlt => absurd hlt (Nat.lt_irrefl _)⟩
    | cons act as ih =>
      intro s hno h
      simp at hno
      simp only [run] at h
      split at h
      · rename_i s1 h1
        obtain ⟨ihl, iha⟩ := ih s1 hno.2 h
        constructor
        · intro hl
          apply ihl
          cases act with
          | stepR => exact absurd rfl hno.1
          | stepA => simp only [step] at h1; grind [wakeR]
          | callAdd x => simp only [step] at h1; grind
          | callRemove => simp [step, hl] at h1
          | callPeek => simp [step, hl] at h1
        · intro hl hlt
          cases act with
          | stepR => exact absurd rfl hno.1
          | callAdd x =>
            have : s1.r = s.r ∧ s1.doneA = s.doneA := by simp only [step] at h1; grind
            exact iha (this.1.trans hl) (by omega)
          | callRemove => simp [step, hl] at h1
          | callPeek => simp [step, hl] at h1
          | stepA =>
            by_cases hb : s.a = .bcast
            · apply ihl
              simp only [step, hb] at h1
              simp at h1; subst h1; simp [wakeR, hl]
            · have : s1.r = s.r ∧ s1.doneA = s.doneA := by simp only [step] at h1; grind
              exact iha (this.1.trans hl) (by omega)
      · simp at h
  exact (key acts s hno h).2 hk hdone

/-- C03, second part that holds: with capacity at least 2 a sleeping Remove/Peek has missed at most one sample - at
most one is in the buffer unless an Add is just about to broadcast. -/
theorem C03_at_most_one_missed_partial (cap : Nat) (hc : 2 ≤ cap) (zero : α) (acts : List (Act α)) (s : State α)
    (h : run (init cap zero) acts = some s) (k : Kind) (hk : s.r = .asleep k) (ha : s.a ≠ .bcast) :
    len s.cap s.head s.tail ≤ 1 := by
  have hl := linv_run hc h
  have hi := inv_run (by omega) h
  have := hl.slpR k hk
  rw [hi.head, hi.tail, len_eq hi.cap hi.le hi.ge]
  rcases this with h' | h'
  · omega
  · exact absurd h' ha

/-- C03, third part that holds: a Remove that got past its wake-up (or has not slept yet) and finds a sample returns
it within five of its own steps when it is not disturbed by another lock holder. -/
theorem C03_available_sample_is_returned_partial (cap : Nat) (hc : 1 ≤ cap) (zero : α) (acts : List (Act α))
    (s : State α) (h : run (init cap zero) acts = some s) (hr : s.r = .lock .remove) (ho : s.owner = .none)
    (hlen : 0 < len s.cap s.head s.tail) :
    ∃ s' v, run s [.stepR, .stepR, .stepR, .stepR, .stepR] = some s' ∧ s'.rets = s.rets ++ [v] ∧
      (addArgs acts)[s.rets.length]? = some v ∧ s'.r = .idle := by
  have hi := inv_run hc h
  have hcalls := calls_eq h
  simp only [init, List.nil_append] at hcalls
  obtain ⟨h1, h2, h3, h4, h5, _, h8, _⟩ := hi
  rw [h4, h5, len_eq h1 h2 h3] at hlen
  have hE := empty_iff h1 h2 h3
  rw [← h4, ← h5] at hE
  have hne : empty s.head s.tail = false := by
    refine Bool.eq_false_iff.2 (fun hne => ?_)
    have := hE.1 hne
    omega
  have hslot : s.tail % s.cap = s.rets.length % s.cap := by
    rw [h5, mod_two_mul_mod, hr]; rfl
  have hv := h8 s.rets.length (by rw [hr]; exact Nat.le_refl _) (by rw [hr] at hlen; simp only [cntR] at hlen; omega)
  refine ⟨{ s with owner := .none, tail := inc s.cap s.tail, r := .idle, a := wakeA s.a,
                   rets := s.rets ++ [s.buf (s.tail % s.cap)] }, s.buf (s.tail % s.cap), ?_, rfl, ?_, ?_⟩
  · simp [run, step, hr, ho, hne]
  · rw [← hcalls, hslot]; exact hv
  · rfl

/-- C04. `Len` is the number of samples added and not yet removed (counting a call when it updates its index; when
no call is in progress this is the number of returned calls), it lies between 0 and `Cap`, `Add` finds the queue full
exactly when `Len = Cap`, and `Remove` finds it empty exactly when `Len = 0`. -/
theorem C04_len (cap : Nat) (hc : 1 ≤ cap) (zero : α) (acts : List (Act α)) (s : State α)
    (h : run (init cap zero) acts = some s) :
    0 ≤ len s.cap s.head s.tail ∧ len s.cap s.head s.tail ≤ cap ∧
    (full s.cap s.head s.tail = true ↔ len s.cap s.head s.tail = cap) ∧
    (empty s.head s.tail = true ↔ len s.cap s.head s.tail = 0) ∧
    (s.a = .idle → s.r = .idle → len s.cap s.head s.tail = (addArgs acts).length - s.rets.length) := by
  have hi := inv_run hc h
  have hcap := cap_run h
  have hcalls := calls_eq h
  simp only [init, List.nil_append] at hcalls
  obtain ⟨h1, h2, h3, h4, h5, ⟨pre, h6, h7⟩, _, _⟩ := hi
  have hF := full_iff h1 h2 h3
  have hE := empty_iff h1 h2 h3
  have hL := len_eq h1 h2 h3
  rw [← h4, ← h5] at hF hE hL
  rw [hL, hF, hE]
  rw [hcap] at h3 ⊢
  refine ⟨by omega, by omega, by omega, by omega, ?_⟩
  intro ha hr
  rw [ha, hr]
  rw [ha] at h6 h7
  simp only [cntA, cntR, pend, List.append_nil] at *
  rw [← hcalls, h6, h7]

/-! ### Non-vacuity: a concrete schedule with wrap-around, a sleeping remover and a peek meets the hypotheses. -/

/-- A remover that sleeps first and is woken, then two more rounds, capacity 2 (indices wrap at 4). -/
def sampleTrace : List (Act Nat) :=
  let add x := [.callAdd x, .stepA, .stepA, .stepA, .stepA, .stepA]
  let rem := [.callRemove, .stepR, .stepR, .stepR, .stepR, .stepR]
  [.callRemove, .stepR, .stepR, .stepR] ++ add 10 ++ [.stepR, .stepR, .stepR, .stepR, .stepR] ++
    add 11 ++ add 12 ++ [.callPeek, .stepR, .stepR, .stepR] ++ rem ++ add 13 ++ rem ++ add 14 ++ rem

example : ∃ s, run (init 2 0) sampleTrace = some s ∧ s.rets = [10, 11, 12, 13] ∧ s.peeks = [(1, 11)] ∧
    s.doneA = 5 ∧ len s.cap s.head s.tail = 1 ∧ s.head = 1 := ⟨_, rfl, rfl, rfl, rfl, rfl, rfl⟩

/-- Both sides in progress (hypotheses of C02). -/
example : ∃ s, run (init 2 0) [.callAdd 1, .callRemove, .stepR, .stepR, .stepR] = some s ∧
    s.a = .lock 1 ∧ s.r = .asleep .remove := ⟨_, rfl, rfl, rfl⟩

/-- Hypotheses of the C03 parts: a sleeping Remove, then a complete Add. -/
example : ∃ s s', run (init 2 0) [.callRemove, .stepR, .stepR, .stepR] = some s ∧ s.r = .asleep .remove ∧
    run s [.callAdd 1, .stepA, .stepA, .stepA, .stepA, .stepA] = some s' ∧ s.doneA < s'.doneA ∧
    s'.r = .lock .remove ∧ s'.owner = .none ∧ 0 < len s'.cap s'.head s'.tail :=
  ⟨_, _, rfl, rfl, rfl, by decide, rfl, rfl, by decide⟩

end MS.SampleQueue
