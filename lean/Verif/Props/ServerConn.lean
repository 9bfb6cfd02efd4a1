import Verif.Model.ServerConn
import Verif.Props.Sender
/-!
# Properties C57, C72-C75: the server and its connections
-/
set_option linter.unusedSimpArgs false
namespace MS.ServerConn
open MS.Proto MS.Sender

/-! ## Specification -/

/-- Who is interested in a message, given the channels subscribed to. -/
def Interested (subscribed : Int32 → Prop) : Msg → Prop
  | .queueChunkRequest _ => subscribed AUDIO
  | .chunkInfo _ | .newSongInfo _ | .pauseInfo _ => subscribed META
  | .setVolumeRequest _ => subscribed AUDIO ∨ subscribed META
  | _ => True

theorem eligible_iff (h : List Op) (m : Msg) (c : Conn) :
    eligible (run h) m c = true ↔ Interested (fun ch => Op.sub c ch ∈ h) m := by
  cases m <;> simp [eligible, channelOf, isSubscribed_run, Interested, Subscribed]

/-! ## Invariants -/

theorem reach_ind {P : Srv → Prop} (h0 : P Srv.init) (hs : ∀ l s t, P s → Step l s t → P t) {s : Srv} (h : Reachable s) : P s := by
  unfold Reachable at h
  generalize hi : Srv.init = i at h
  subst hi
  induction h with
  | refl => exact h0
  | tail _ _ hstep ih => exact hs _ _ _ ih hstep

/-- The changes that have been requested but not made. -/
def pending (s : Srv) : List Op := s.queue ++ s.announced.toList

structure Inv1 (s : Srv) : Prop where
  add : ∀ c, (pending s).count (.add c) = if s.phase c = .accepted then 1 else 0
  del : ∀ c, (pending s).count (.del c) = if s.phase c = .closed then 1 else 0
  conn : ∀ c, s.sender.connections.count c = if s.phase c = .opened ∨ s.phase c = .closed then 1 else 0
  run : s.sender = run s.ops
  ops : ∀ c, s.ops.count (.add c) = if s.phase c = .opened ∨ s.phase c = .closed ∨ s.phase c = .gone then 1 else 0
  dels : ∀ c, s.ops.count (.del c) = if s.phase c = .gone then 1 else 0
  sub : ∀ c ch, (pending s).count (.sub c ch) + s.ops.count (.sub c ch) = s.asked.count (c, ch)

theorem inv1_init : Inv1 Srv.init := by
  constructor <;> intros <;> simp [Srv.init, pending, St.init, Sender.run]

theorem inv1_step {l : Label} {s t : Srv} (h : Inv1 s) (hs : Step l s t) : Inv1 t := by
  obtain ⟨h1, h2, h3, h4, h5, h6, h7⟩ := h
  cases hs with
  | ready => exact ⟨h1, h2, h3, h4, h5, h6, h7⟩
  | accept _ hc c hp =>
    refine ⟨?_, ?_, ?_, h4, ?_, ?_, ?_⟩
    · intro d
      have := h1 d
      by_cases hd : d = c
      · subst hd; rw [hp] at this; simp only [pending, setPhase, List.count_append] at this ⊢; simp at this ⊢; simp [this]
      · simp_all [pending, setPhase, List.count_append, Ne.symm hd, List.count_cons]
    · intro d
      have := h2 d
      by_cases hd : d = c
      · subst hd; simp_all [pending, setPhase, List.count_append]
      · simp_all [pending, setPhase, List.count_append]
    · intro d
      have := h3 d
      by_cases hd : d = c
      · subst hd; simp_all [setPhase]
      · simp_all [setPhase]
    · intro d
      have := h5 d
      by_cases hd : d = c
      · subst hd; simp_all [setPhase]
      · simp_all [setPhase]
    · intro d
      have := h6 d
      by_cases hd : d = c
      · subst hd; simp_all [setPhase]
      · simp_all [setPhase]
    · intro d ch
      have := h7 d ch
      simp_all [pending, List.count_append]
  | receiveSub _ hc c ch hp =>
    refine ⟨?_, ?_, h3, h4, h5, h6, ?_⟩
    · intro d; have := h1 d; simp_all [pending, List.count_append]
    · intro d; have := h2 d; simp_all [pending, List.count_append]
    · intro d k
      have := h7 d k
      simp only [pending, List.count_append, List.count_cons, List.count_nil, beq_iff_eq, Op.sub.injEq, Prod.mk.injEq] at this ⊢
      split <;> omega
  | hangup _ hc c hp =>
    refine ⟨?_, ?_, ?_, h4, ?_, ?_, ?_⟩
    · intro d
      have := h1 d
      by_cases hd : d = c
      · subst hd; simp_all [pending, setPhase, List.count_append]
      · simp_all [pending, setPhase, List.count_append]
    · intro d
      have := h2 d
      by_cases hd : d = c
      · subst hd; rw [hp] at this; simp only [pending, setPhase, List.count_append] at this ⊢; simp at this ⊢; simp [this]
      · simp_all [pending, setPhase, List.count_append, Ne.symm hd, List.count_cons]
    · intro d
      have := h3 d
      by_cases hd : d = c
      · subst hd; simp_all [setPhase]
      · simp_all [setPhase]
    · intro d
      have := h5 d
      by_cases hd : d = c
      · subst hd; simp_all [setPhase]
      · simp_all [setPhase]
    · intro d
      have := h6 d
      by_cases hd : d = c
      · subst hd; simp_all [setPhase]
      · simp_all [setPhase]
    · intro d k
      have := h7 d k
      simp_all [pending, List.count_append]
  | announce _ hc x y o hq hn =>
    have e : ∀ p, (pending { s with queue := x ++ y, announced := some o }).count p = (pending s).count p := by
      intro p
      simp only [pending, hq, hn, Option.toList, List.count_append, List.count_cons, List.count_nil]
      omega
    exact ⟨fun c => (e _).trans (h1 c), fun c => (e _).trans (h2 c), h3, h4, h5, h6, fun c ch => by rw [e]; exact h7 c ch⟩
  | exec _ hc o ho ha =>
    have e : ∀ p, (pending s).count p = s.queue.count p + if o = p then 1 else 0 := by
      intro p
      simp only [pending, ho, Option.toList, List.count_append, List.count_cons, List.count_nil, beq_iff_eq]
      omega
    have hrun : Sender.apply s.sender o = Sender.run (s.ops ++ [o]) := by rw [run_snoc, ← h4]
    cases o with
    | add c =>
      have hacc : s.phase c = .accepted := by
        have := h1 c
        rw [e] at this
        simp at this
        split at this
        · assumption
        · omega
      refine ⟨?_, ?_, ?_, ?_, ?_, ?_, ?_⟩
      · intro d
        have := h1 d
        rw [e] at this
        by_cases hd : d = c
        · subst hd; simp_all [pending, opPhase, setPhase]
        · simp_all [pending, opPhase, setPhase, Ne.symm hd]
      · intro d
        have := h2 d
        rw [e] at this
        by_cases hd : d = c
        · subst hd; simp_all [pending, opPhase, setPhase]
        · simp_all [pending, opPhase, setPhase]
      · intro d
        have := h3 d
        by_cases hd : d = c
        · subst hd; clear hrun; simp_all [apply, addConn, opPhase, setPhase, List.count_append]
        · rw [show (apply s.sender (.add c)).connections = s.sender.connections ++ [c] from rfl, List.count_append, this]
          simp [opPhase, setPhase, hd, Ne.symm hd, List.count_cons]
      · exact hrun
      · intro d
        have := h5 d
        by_cases hd : d = c
        · subst hd; simp_all [opPhase, setPhase, List.count_append]
        · simp_all [opPhase, setPhase, List.count_append, Ne.symm hd, List.count_cons]
      · intro d
        have := h6 d
        by_cases hd : d = c
        · subst hd; simp_all [opPhase, setPhase, List.count_append]
        · simp_all [opPhase, setPhase, List.count_append]
      · intro d k
        have := h7 d k
        rw [e] at this
        simp_all [pending, List.count_append]
    | del c =>
      have hcl : s.phase c = .closed := by
        have := h2 c
        rw [e] at this
        simp at this
        split at this
        · assumption
        · omega
      refine ⟨?_, ?_, ?_, ?_, ?_, ?_, ?_⟩
      · intro d
        have := h1 d
        rw [e] at this
        by_cases hd : d = c
        · subst hd; simp_all [pending, opPhase, setPhase]
        · simp_all [pending, opPhase, setPhase]
      · intro d
        have := h2 d
        rw [e] at this
        by_cases hd : d = c
        · subst hd; simp_all [pending, opPhase, setPhase]
        · simp_all [pending, opPhase, setPhase, Ne.symm hd]
      · intro d
        have := h3 d
        show (delConn s.sender c).connections.count d = _
        rw [count_del]
        by_cases hd : d = c
        · subst hd; simp_all [opPhase, setPhase]
        · simp_all [opPhase, setPhase]
      · exact hrun
      · intro d
        have := h5 d
        by_cases hd : d = c
        · subst hd; simp_all [opPhase, setPhase, List.count_append]
        · simp_all [opPhase, setPhase, List.count_append]
      · intro d
        have := h6 d
        by_cases hd : d = c
        · subst hd; simp_all [opPhase, setPhase, List.count_append]
        · simp_all [opPhase, setPhase, List.count_append, Ne.symm hd, List.count_cons]
      · intro d k
        have := h7 d k
        rw [e] at this
        simp_all [pending, List.count_append]
    | sub c ch =>
      refine ⟨?_, ?_, h3, ?_, ?_, ?_, ?_⟩
      · intro d
        have := h1 d
        rw [e] at this
        show (s.queue ++ []).count _ = if s.phase d = .accepted then 1 else 0
        simpa using this
      · intro d
        have := h2 d
        rw [e] at this
        show (s.queue ++ []).count _ = if s.phase d = .closed then 1 else 0
        simpa using this
      · exact hrun
      · intro d
        have := h5 d
        show (s.ops ++ [_]).count _ = if s.phase d = .opened ∨ s.phase d = .closed ∨ s.phase d = .gone then 1 else 0
        simpa [List.count_append] using this
      · intro d
        have := h6 d
        show (s.ops ++ [_]).count _ = if s.phase d = .gone then 1 else 0
        simpa [List.count_append] using this
      · intro d k
        have := h7 d k
        rw [e] at this
        simp only [pending, Option.toList, List.append_nil, List.count_append, List.count_cons, List.count_nil, beq_iff_eq,
          Op.sub.injEq] at this ⊢
        omega
  | newClient => exact ⟨h1, h2, h3, h4, h5, h6, h7⟩
  | begin => exact ⟨h1, h2, h3, h4, h5, h6, h7⟩
  | write => exact ⟨h1, h2, h3, h4, h5, h6, h7⟩
  | writeFails => exact ⟨h1, h2, h3, h4, h5, h6, h7⟩
  | skip => exact ⟨h1, h2, h3, h4, h5, h6, h7⟩
  | finish => exact ⟨h1, h2, h3, h4, h5, h6, h7⟩
  | stall => exact ⟨h1, h2, h3, h4, h5, h6, h7⟩
  | unstall => exact ⟨h1, h2, h3, h4, h5, h6, h7⟩

theorem inv1 {s : Srv} (h : Reachable s) : Inv1 s := reach_ind inv1_init (fun _ _ _ h hs => inv1_step h hs) h

/-- How far a connection is. -/
def rank : Phase → Nat
  | .none => 0 | .accepted => 1 | .opened => 2 | .closed => 3 | .gone => 4

theorem rank_inj {p q : Phase} (h : rank p = rank q) : p = q := by cases p <;> cases q <;> simp_all [rank]

theorem rank_step {l : Label} {s t : Srv} (h1 : Inv1 s) (hs : Step l s t) (c : Conn) : rank (s.phase c) ≤ rank (t.phase c) := by
  cases hs with
  | accept _ hc d hp =>
    by_cases h : c = d
    · subst h; simp [setPhase, hp, rank]
    · simp [setPhase, h]
  | hangup _ hc d hp =>
    by_cases h : c = d
    · subst h; simp [setPhase, hp, rank]
    · simp [setPhase, h]
  | exec _ hc o ho ha =>
    cases o with
    | add d =>
      by_cases h : c = d
      · subst h
        have := h1.add c
        simp only [pending, ho, Option.toList, List.count_append] at this
        simp at this
        have hp : s.phase c = .accepted := by
          split at this
          · assumption
          · omega
        simp [opPhase, setPhase, hp, rank]
      · simp [opPhase, setPhase, h]
    | del d =>
      by_cases h : c = d
      · subst h
        have := h1.del c
        simp only [pending, ho, Option.toList, List.count_append] at this
        simp at this
        have hp : s.phase c = .closed := by
          split at this
          · assumption
          · omega
        simp [opPhase, setPhase, hp, rank]
      · simp [opPhase, setPhase, h]
    | sub d k => exact Nat.le_refl _
  | _ => exact Nat.le_refl _

/-- In how many goroutines the message `id` is still to be written to `c`. -/
def due (st : St) (active : List Bcast) (id : Nat) (c : Conn) : Nat :=
  (active.map fun b => if b.id = id ∧ eligible st b.msg c = true then b.todo.count c else 0).sum

theorem due_append (st : St) (x y : List Bcast) (id : Nat) (c : Conn) : due st (x ++ y) id c = due st x id c + due st y id c := by
  simp [due]

theorem due_cons (st : St) (b : Bcast) (y : List Bcast) (id : Nat) (c : Conn) :
    due st (b :: y) id c = (if b.id = id ∧ eligible st b.msg c = true then b.todo.count c else 0) + due st y id c := by
  simp [due]

/-- `c` is connected and interested when the broadcast begins. -/
def Wanted (g : Begun) (c : Conn) : Prop :=
  (g.phase c = .opened ∨ g.phase c = .closed) ∧ Interested (fun ch => Op.sub c ch ∈ g.ops) g.msg

structure Inv2 (s : Srv) : Prop where
  act : ∀ b ∈ s.active, ∃ g, s.begun[b.id]? = some g ∧ g.msg = b.msg ∧ g.ops = s.ops
  fresh : ∀ c id, s.begun.length ≤ id → s.delivered.count (c, id) = 0 ∧ s.failed.count (c, id) = 0
  ids : (s.active.map Bcast.id).Nodup
  phase : ∀ g ∈ s.begun, ∀ c, rank (g.phase c) ≤ rank (s.phase c)
  count : ∀ id g, s.begun[id]? = some g → ∀ c,
    (Wanted g c → s.delivered.count (c, id) + s.failed.count (c, id) + due s.sender s.active id c = 1) ∧
    (¬ Wanted g c → s.delivered.count (c, id) = 0 ∧ s.failed.count (c, id) = 0 ∧ due s.sender s.active id c = 0)
  open_ : ∀ c id, (c, id) ∈ s.delivered → ∃ g, s.begun[id]? = some g ∧ g.phase c = .opened

theorem inv2_init : Inv2 Srv.init := by
  constructor <;> intros <;> simp_all [Srv.init]

theorem due_fresh {s : Srv} (h : Inv2 s) (c : Conn) : due s.sender s.active s.begun.length c = 0 := by
  have h := h.act
  generalize s.active = a at h
  induction a with
  | nil => rfl
  | cons b a ih =>
    rw [due_cons, ih (fun b' hb' => h b' (by simp [hb'])), if_neg]
    rintro ⟨e, _⟩
    obtain ⟨g, hg, _⟩ := h b (by simp)
    rw [e] at hg
    simp at hg

/-- One goroutine of a broadcast finishes. -/
theorem inv2_todo {s : Srv} {x y : List Bcast} {b : Bcast} {p q : List Conn} {c : Conn}
    (ha : s.active = x ++ b :: y) (ht : b.todo = p ++ c :: q) (id : Nat) (d : Conn) :
    due s.sender s.active id d = due s.sender (x ++ { b with todo := p ++ q } :: y) id d +
      if b.id = id ∧ d = c ∧ eligible s.sender b.msg c = true then 1 else 0 := by
  rw [ha, due_append, due_append, due_cons, due_cons]
  simp only [ht, List.count_append, List.count_cons]
  by_cases hd : d = c
  · subst hd
    simp only [BEq.rfl, if_true]
    by_cases hi : b.id = id ∧ eligible s.sender b.msg d = true
    · rw [if_pos hi, if_pos hi, if_pos ⟨hi.1, trivial, hi.2⟩]; omega
    · rw [if_neg hi, if_neg hi, if_neg (fun hh => hi ⟨hh.1, hh.2.2⟩), Nat.add_zero]
  · have hb : (c == d) = false := by simp [Ne.symm hd]
    simp [hb, hd]

theorem act_todo {s : Srv} (h2 : Inv2 s) {x y : List Bcast} {b : Bcast} {t : List Conn} (ha : s.active = x ++ b :: y) :
    (∀ b' ∈ x ++ { b with todo := t } :: y, ∃ g, s.begun[b'.id]? = some g ∧ g.msg = b'.msg ∧ g.ops = s.ops) ∧
    ((x ++ { b with todo := t } :: y).map Bcast.id).Nodup := by
  constructor
  · intro b' hb'
    have := h2.act
    rw [ha] at this
    simp only [List.mem_append, List.mem_cons] at hb' this
    rcases hb' with hb' | rfl | hb'
    · exact this b' (.inl hb')
    · exact this b (.inr (.inl rfl))
    · exact this b' (.inr (.inr hb'))
  · have := h2.ids
    rw [ha] at this
    simpa using this

theorem inv2_step {l : Label} {s t : Srv} (h1 : Inv1 s) (h2 : Inv2 s) (hs : Step l s t) : Inv2 t := by
  have hr := rank_step h1 hs
  have hph : ∀ g ∈ s.begun, ∀ c, rank (g.phase c) ≤ rank (t.phase c) := fun g hg c => Nat.le_trans (h2.phase g hg c) (hr c)
  cases hs with
  | ready => exact ⟨h2.act, h2.fresh, h2.ids, hph, h2.count, h2.open_⟩
  | accept => exact ⟨h2.act, h2.fresh, h2.ids, hph, h2.count, h2.open_⟩
  | receiveSub => exact ⟨h2.act, h2.fresh, h2.ids, hph, h2.count, h2.open_⟩
  | hangup => exact ⟨h2.act, h2.fresh, h2.ids, hph, h2.count, h2.open_⟩
  | announce => exact ⟨h2.act, h2.fresh, h2.ids, hph, h2.count, h2.open_⟩
  | newClient => exact ⟨h2.act, h2.fresh, h2.ids, hph, h2.count, h2.open_⟩
  | stall => exact ⟨h2.act, h2.fresh, h2.ids, hph, h2.count, h2.open_⟩
  | unstall => exact ⟨h2.act, h2.fresh, h2.ids, hph, h2.count, h2.open_⟩
  | exec _ hc o ho ha =>
    refine ⟨?_, h2.fresh, h2.ids, hph, ?_, h2.open_⟩
    · simp [ha]
    · intro id g hg c
      have := h2.count id g hg c
      simpa [ha, due] using this
  | begin _ hc m hn =>
    refine ⟨?_, ?_, ?_, ?_, ?_, ?_⟩
    · intro b hb
      simp only [List.mem_append, List.mem_singleton] at hb
      rcases hb with hb | rfl
      · obtain ⟨g, hg, h⟩ := h2.act b hb
        refine ⟨g, ?_, h⟩
        rw [List.getElem?_append_left]
        · exact hg
        · exact (List.getElem?_eq_some_iff.1 hg).1
      · exact ⟨⟨m, s.phase, s.ops⟩, by simp, rfl, rfl⟩
    · intro c id hid
      exact h2.fresh c id (by simp at hid; omega)
    · simp only [List.map_append, List.map_cons, List.map_nil]
      rw [List.nodup_append]
      refine ⟨h2.ids, by simp, ?_⟩
      intro i hi j hj
      simp at hj
      subst hj
      simp only [List.mem_map] at hi
      obtain ⟨b, hb, rfl⟩ := hi
      obtain ⟨g, hg, _⟩ := h2.act b hb
      have := (List.getElem?_eq_some_iff.1 hg).1
      omega
    · intro g hg c
      simp only [List.mem_append, List.mem_singleton] at hg
      rcases hg with hg | rfl
      · exact h2.phase g hg c
      · exact Nat.le_refl _
    · intro id g hg c
      rw [due_append, due_cons, show due s.sender [] id c = 0 from rfl, Nat.add_zero]
      by_cases hid : id < s.begun.length
      · rw [List.getElem?_append_left hid] at hg
        rw [if_neg (by rintro ⟨h, _⟩; simp at h; omega), Nat.add_zero]
        exact h2.count id g hg c
      · have hid' : id = s.begun.length := by
          have := (List.getElem?_eq_some_iff.1 hg).1
          simp at this
          omega
        subst hid'
        rw [List.getElem?_concat_length] at hg
        cases hg
        have hf := h2.fresh c s.begun.length (Nat.le_refl _)
        have he := eligible_iff s.ops m c
        rw [← h1.run] at he
        have hcn := h1.conn c
        rw [due_fresh h2, hf.1, hf.2]
        constructor
        · rintro ⟨w1, w2⟩
          rw [if_pos ⟨rfl, he.2 w2⟩]
          simp only [hcn]
          rw [if_pos w1]
        · intro hw
          refine ⟨rfl, rfl, ?_⟩
          by_cases h : eligible s.sender m c = true
          · rw [if_pos ⟨rfl, h⟩]
            simp only [hcn]
            rw [if_neg (fun w1 => hw ⟨w1, he.1 h⟩)]
          · rw [if_neg (fun hh => h hh.2)]
    · intro c id hm
      obtain ⟨g, hg, hp⟩ := h2.open_ c id hm
      refine ⟨g, ?_, hp⟩
      rw [List.getElem?_append_left]
      · exact hg
      · exact (List.getElem?_eq_some_iff.1 hg).1
  | write _ hc x y b p q c ha ht he hst hp =>
    obtain ⟨a1, a2⟩ := act_todo h2 (t := p ++ q) ha
    have hb := h2.act b (by simp [ha])
    obtain ⟨g0, hg0, hm0, ho0⟩ := hb
    have hlt := (List.getElem?_eq_some_iff.1 hg0).1
    refine ⟨a1, ?_, a2, hph, ?_, ?_⟩
    · intro d id hid
      have hid : s.begun.length ≤ id := hid
      have := h2.fresh d id hid
      simp only [List.count_append, List.count_cons, List.count_nil]
      rw [this.1, this.2]
      have : ((c, b.id) == (d, id)) = false := by simp; intro _; omega
      simp [this]
    · intro id g hg d
      have hcnt := h2.count id g hg d
      have hd := inv2_todo ha ht id d
      simp only [List.count_append, List.count_cons, List.count_nil, beq_iff_eq, Prod.mk.injEq] at hcnt ⊢
      by_cases hcase : c = d ∧ b.id = id
      · rw [if_pos ⟨hcase.2, hcase.1.symm, he⟩] at hd
        rw [if_pos hcase]
        constructor
        · intro w; have := hcnt.1 w; omega
        · intro w; have := hcnt.2 w; omega
      · rw [if_neg (fun hh => hcase ⟨hh.2.1.symm, hh.1⟩)] at hd
        rw [if_neg hcase]
        constructor
        · intro w; have := hcnt.1 w; omega
        · intro w; have := hcnt.2 w; omega
    · intro d id hm
      simp only [List.mem_append, List.mem_singleton, Prod.mk.injEq] at hm
      rcases hm with hm | ⟨rfl, rfl⟩
      · exact h2.open_ d id hm
      · refine ⟨g0, hg0, ?_⟩
        have hcnt := h2.count b.id g0 hg0 d
        have hd := inv2_todo ha ht b.id d
        rw [if_pos ⟨rfl, rfl, he⟩] at hd
        have hw : Wanted g0 d := Classical.byContradiction fun hn => by have := hcnt.2 hn; omega
        have hr := h2.phase g0 (List.mem_of_getElem? hg0) d
        rw [hp] at hr
        rcases hw.1 with h | h
        · exact h
        · rw [h] at hr; simp [rank] at hr
  | writeFails _ hc x y b p q c ha ht he hst =>
    obtain ⟨a1, a2⟩ := act_todo h2 (t := p ++ q) ha
    have hb := h2.act b (by simp [ha])
    obtain ⟨g0, hg0, hm0, ho0⟩ := hb
    have hlt := (List.getElem?_eq_some_iff.1 hg0).1
    refine ⟨a1, ?_, a2, hph, ?_, h2.open_⟩
    · intro d id hid
      have hid : s.begun.length ≤ id := hid
      have := h2.fresh d id hid
      simp only [List.count_append, List.count_cons, List.count_nil]
      rw [this.1, this.2]
      have : ((c, b.id) == (d, id)) = false := by simp; intro _; omega
      simp [this]
    · intro id g hg d
      have hcnt := h2.count id g hg d
      have hd := inv2_todo ha ht id d
      simp only [List.count_append, List.count_cons, List.count_nil, beq_iff_eq, Prod.mk.injEq] at hcnt ⊢
      by_cases hcase : c = d ∧ b.id = id
      · rw [if_pos ⟨hcase.2, hcase.1.symm, he⟩] at hd
        rw [if_pos hcase]
        constructor
        · intro w; have := hcnt.1 w; omega
        · intro w; have := hcnt.2 w; omega
      · rw [if_neg (fun hh => hcase ⟨hh.2.1.symm, hh.1⟩)] at hd
        rw [if_neg hcase]
        constructor
        · intro w; have := hcnt.1 w; omega
        · intro w; have := hcnt.2 w; omega
  | skip _ hc x y b p q c ha ht he =>
    obtain ⟨a1, a2⟩ := act_todo h2 (t := p ++ q) ha
    refine ⟨a1, h2.fresh, a2, hph, ?_, h2.open_⟩
    intro id g hg d
    have hcnt := h2.count id g hg d
    have hd := inv2_todo ha ht id d
    rw [if_neg (by rintro ⟨_, _, h⟩; simp [he] at h)] at hd
    show (Wanted g d → s.delivered.count (d, id) + s.failed.count (d, id) + due s.sender (x ++ _ :: y) id d = 1) ∧
      (¬ Wanted g d → s.delivered.count (d, id) = 0 ∧ s.failed.count (d, id) = 0 ∧ due s.sender (x ++ _ :: y) id d = 0)
    constructor
    · intro w; have := hcnt.1 w; omega
    · intro w; have := hcnt.2 w; omega
  | finish _ hc x y b ha ht =>
    refine ⟨?_, h2.fresh, ?_, hph, ?_, h2.open_⟩
    · intro b' hb'
      exact h2.act b' (by rw [ha]; simp at hb' ⊢; rcases hb' with h | h <;> simp [h])
    · have := h2.ids
      rw [ha] at this
      simp only [List.map_append, List.map_cons] at this ⊢
      exact (List.Sublist.append_left (List.sublist_cons_self _ _) _).nodup this
    · intro id g hg d
      have hcnt := h2.count id g hg d
      have : due s.sender s.active id d = due s.sender (x ++ y) id d := by
        rw [ha, due_append, due_append, due_cons, ht]; simp
      rw [this] at hcnt
      exact hcnt

theorem inv12 {s : Srv} (h : Reachable s) : Inv1 s ∧ Inv2 s :=
  reach_ind (P := fun s => Inv1 s ∧ Inv2 s) ⟨inv1_init, inv2_init⟩
    (fun _ _ _ h hs => ⟨inv1_step h.1 hs, inv2_step h.1 h.2 hs⟩) h

/-! ## C72: broadcasts -/

/-- C72. In every execution of the server, with any number of clients connecting, subscribing, stalling and leaving and any
number of overlapping broadcasts: no broadcast is delivered twice to a client; it is delivered only to clients that were
connected and had asked for it when it began; and when it has finished, every such client has it or its write failed. -/
theorem C72_exactly_once {s : Srv} (h : Reachable s) (id : Nat) (g : Begun) (hg : s.begun[id]? = some g) (c : Conn) :
    s.delivered.count (c, id) ≤ 1 ∧
    ((c, id) ∈ s.delivered → g.phase c = .opened ∧ Interested (fun ch => Op.sub c ch ∈ g.ops) g.msg) ∧
    (g.phase c = .opened → Interested (fun ch => Op.sub c ch ∈ g.ops) g.msg → (∀ b ∈ s.active, b.id ≠ id) →
      ((c, id) ∈ s.delivered ∨ (c, id) ∈ s.failed) ∧ ¬ ((c, id) ∈ s.delivered ∧ (c, id) ∈ s.failed)) := by
  obtain ⟨h1, h2⟩ := inv12 h
  have hc := h2.count id g hg c
  have hz : ∀ {l : List (Conn × Nat)}, (c, id) ∈ l ↔ l.count (c, id) ≠ 0 := by
    intro l
    rw [← List.count_pos_iff]; omega
  refine ⟨?_, ?_, ?_⟩
  · by_cases hw : Wanted g c
    · have := hc.1 hw; omega
    · have := hc.2 hw; omega
  · intro hm
    obtain ⟨g', hg', hp⟩ := h2.open_ c id hm
    rw [hg] at hg'
    cases hg'
    refine ⟨hp, ?_⟩
    have hw : Wanted g c := Classical.byContradiction fun hn => by have := hc.2 hn; exact (hz.1 hm) this.1
    exact hw.2
  · intro hp hi ha
    have hd : due s.sender s.active id c = 0 := by
      clear hc h2 h1 h
      generalize s.active = a at ha
      induction a with
      | nil => rfl
      | cons b a ih => rw [due_cons, ih (fun b hb => ha b (by simp [hb])), if_neg (fun hh => ha b (by simp) hh.1)]
    have := hc.1 ⟨.inl hp, hi⟩
    rw [hz, hz]
    omega

/-- C72, where the subscriptions come from: only from messages of the client itself, and none is lost: each is made, or still
to be made. -/
theorem C72_subscriptions {s : Srv} (h : Reachable s) (c : Conn) (ch : Int32) :
    (Op.sub c ch ∈ s.ops → (c, ch) ∈ s.asked) ∧ ((c, ch) ∈ s.asked → Op.sub c ch ∈ s.ops ∨ Op.sub c ch ∈ s.queue ++ s.announced.toList) := by
  have := (inv12 h).1.sub c ch
  simp only [pending] at this
  simp only [← List.count_pos_iff]
  constructor <;> omega

/-- C72 for C27: the server adds every connection at most once, as C27 supposes, and what it knows is the result of the changes
made. -/
theorem C72_adds_once {s : Srv} (h : Reachable s) : (∀ c, s.ops.count (.add c) ≤ 1) ∧ s.sender = run s.ops := by
  refine ⟨fun c => ?_, (inv12 h).1.run⟩
  rw [(inv12 h).1.ops c]
  split <;> omega

/-! ## C73: connections come and go -/

/-- C73: the broadcast list holds every connection that is being read, and every closed one that is about to be removed, once,
and no others. -/
theorem C73_list {s : Srv} (h : Reachable s) :
    s.sender.connections.Nodup ∧ ∀ c, c ∈ s.sender.connections ↔ s.phase c = .opened ∨ s.phase c = .closed := by
  have h1 := (inv12 h).1.conn
  constructor
  · rw [List.nodup_iff_count]
    intro c
    rw [h1 c]; split <;> omega
  · intro c
    rw [← List.count_pos_iff, h1 c]
    split <;> simp_all

/-- C73: a connection that has gone never comes back. -/
theorem C73_gone {allow : Label → Prop} {s t : Srv} (h : Reachable s) (hs : Steps allow s t) (c : Conn) (hg : s.phase c = .gone) :
    t.phase c = .gone ∧ c ∉ t.sender.connections := by
  have key : Reachable t ∧ t.phase c = .gone := by
    induction hs with
    | refl => exact ⟨h, hg⟩
    | tail hs hl hstep ih =>
      refine ⟨.tail ih.1 trivial hstep, ?_⟩
      have := rank_step (inv12 ih.1).1 hstep c
      rw [ih.2] at this
      apply rank_inj
      have hle : ∀ p, rank p ≤ 4 := fun p => by cases p <;> simp [rank]
      exact Nat.le_antisymm (hle _) this
  refine ⟨key.2, ?_⟩
  rw [(C73_list key.1).2 c, key.2]
  simp

/-- What the code still has to do. -/
def work (s : Srv) : Nat :=
  3 * s.queue.length + 2 * s.announced.toList.length + s.newClients.length + (s.active.map fun b => b.todo.length + 1).sum

/-- Nothing left to do. -/
def Settled (s : Srv) : Prop := s.queue = [] ∧ s.announced = none ∧ s.newClients = [] ∧ s.active = []

theorem work_step {s t : Srv} (hs : Step .code s t) : work t < work s := by
  cases hs with
  | announce _ hc x y o h hn => simp [work, h, hn]; omega
  | exec _ hc o h ha =>
    have : (opNext o).length ≤ 1 := by cases o <;> simp [opNext]
    simp [work, h, ha]; omega
  | newClient _ hc x y p h => simp [work, h]
  | write _ hc x y b p q c h ht he hs hp => simp [work, h, ht]
  | writeFails _ hc x y b p q c h ht he hs => simp [work, h, ht]
  | skip _ hc x y b p q c h ht he => simp [work, h, ht]
  | finish _ hc x y b h ht => simp [work, h, ht]

/-- C73: while no client stalls, everything is dealt with: every step of the code brings the end of its work nearer, and as
long as there is work, some step is possible. So after finitely many steps every connect, disconnect, subscription and
broadcast so far has been completed, whatever the order. -/
theorem C73_settles {s : Srv} (hc : s.crashed = false) (hst : ∀ c, s.stalled c = false) :
    (∀ t, Step .code s t → work t < work s) ∧ (Settled s ∨ ∃ t, Step .code s t) := by
  refine ⟨fun t => work_step, ?_⟩
  cases hn : s.newClients with
  | cons p y => exact .inr ⟨_, .newClient s hc [] y p hn⟩
  | nil =>
    cases ha : s.active with
    | cons b y =>
      right
      cases ht : b.todo with
      | nil => exact ⟨_, .finish s hc [] y b ha ht⟩
      | cons c q =>
        cases he : eligible s.sender b.msg c with
        | true => exact ⟨_, .writeFails s hc [] y b [] q c ha ht he (.inl (hst c))⟩
        | false => exact ⟨_, .skip s hc [] y b [] q c ha ht he⟩
    | nil =>
      cases ho : s.announced with
      | some o => exact .inr ⟨_, .exec s hc o ho ha⟩
      | none =>
        cases hq : s.queue with
        | nil => exact .inl ⟨hq, ho, hn, ha⟩
        | cons o y => exact .inr ⟨_, .announce s hc [] y o hq ho⟩

/-! ## C57: subscribing while the server starts -/

/-- C57 is false: whichever client subscribes to whatever channel, there is an execution in which that crashes the server: its
subscription is handled before the server has set its client handler. -/
theorem C57_crash_reachable (c : Conn) (ch : Int32) : ∃ s, Reachable s ∧ s.asked = [(c, ch)] ∧ s.crashed = true := by
  have a0 : Reachable Srv.init := .refl _
  have a1 := Steps.tail a0 trivial (.accept _ rfl c rfl)
  have a2 := Steps.tail a1 trivial (.announce _ rfl [] [] (.add c) rfl rfl)
  have a3 := Steps.tail a2 trivial (.exec _ rfl (.add c) rfl rfl)
  have a4 := Steps.tail a3 trivial (.receiveSub _ rfl c ch (by simp [opPhase, setPhase]))
  have a5 := Steps.tail a4 trivial (.announce _ rfl [] [] (.sub c ch) rfl rfl)
  have a6 := Steps.tail a5 trivial (.exec _ rfl (.sub c ch) rfl rfl)
  have a7 := Steps.tail a6 trivial (.newClient _ rfl [] [] (c, ch) rfl)
  exact ⟨_, a7, rfl, rfl⟩

/-- C57, where it holds: once the server's client handler is set, nothing the clients do here crashes it. -/
theorem C57_no_crash_partial {s t : Srv} (hr : s.ready = true) (hc : s.crashed = false) (h : Steps (fun _ => True) s t) :
    t.crashed = false := by
  have key : t.ready = true ∧ t.crashed = false := by
    induction h with
    | refl => exact ⟨hr, hc⟩
    | tail _ _ hstep ih =>
      cases hstep
      case newClient => simp [ih.1]
      case ready => simp [ih.2]
      all_goals exact ih
  exact key.2

theorem newClients_ops {s : Srv} (h : Reachable s) : ∀ p ∈ s.newClients, Op.sub p.1 p.2 ∈ s.ops := by
  refine reach_ind (P := fun s => ∀ p ∈ s.newClients, Op.sub p.1 p.2 ∈ s.ops) (by simp [Srv.init]) ?_ h
  intro l s t ih hs
  cases hs with
  | exec _ hc o ho ha =>
    intro p hp
    rcases List.mem_append.1 hp with hp | hp
    · exact List.mem_append_left _ (ih p hp)
    · cases o <;> simp [opNext] at hp
      subst hp
      simp
  | newClient _ hc x y p hp =>
    intro q hq
    exact ih q (by rw [hp]; simp at hq ⊢; rcases hq with h | h <;> simp [h])
  | _ => exact ih

/-- C57: the only cause of such a crash is a client that subscribed before the handler was set. -/
theorem C57_crash_cause {s : Srv} (h : Reachable s) (hc : s.crashed = true) : s.ready = false ∧ s.asked ≠ [] := by
  unfold Reachable at h
  cases h with
  | refl => simp [Srv.init] at hc
  | tail h _ hs =>
    cases hs with
    | newClient _ h1 x y p h2 =>
      simp at hc
      refine ⟨hc, fun hn => ?_⟩
      have := (C72_subscriptions h p.1 p.2).1 (newClients_ops h p (by simp [h2]))
      simp at hn
      rw [hn] at this
      cases this
    | _ => simp_all

/-! ## C74: a client that stops reading -/

/-- C74 is false. A change of the connections or subscriptions waits (somebody connects, leaves or subscribes) while a
broadcast is being written to a client `k` that does not read. From then on, until `k` reads again or its connection breaks,
no message is broadcast to anyone and no client is added, removed or subscribed, whatever else happens. -/
theorem C74_stalled_client_blocks_all {s t : Srv} (k : Conn) (o : Op) (ho : s.announced = some o) (hk : s.stalled k = true)
    (hp : s.phase k = .opened) (b : Bcast) (hb : b ∈ s.active) (ht : k ∈ b.todo) (he : eligible s.sender b.msg k = true)
    (hs : Steps (fun l => l ≠ .unstall k ∧ l ≠ .hangup k) s t) (hr : Reachable s) :
    t.begun = s.begun ∧ t.ops = s.ops ∧ t.sender = s.sender ∧ ∃ b ∈ t.active, k ∈ b.todo := by
  have key : Reachable t ∧ t.announced = some o ∧ t.stalled k = true ∧ t.phase k = .opened ∧ t.begun = s.begun ∧ t.ops = s.ops ∧
      t.sender = s.sender ∧ ∃ b ∈ t.active, k ∈ b.todo ∧ eligible s.sender b.msg k = true := by
    induction hs with
    | refl => exact ⟨hr, ho, hk, hp, rfl, rfl, rfl, b, hb, ht, he⟩
    | @tail u v l h hl hstep ih =>
      obtain ⟨i0, i1, i2, i3, i4, i5, i6, b', hb', hkb, heb⟩ := ih
      have hreach : Reachable v := .tail i0 trivial hstep
      refine ⟨hreach, ?_⟩
      have keep : ∀ (x y : List Bcast) (b0 : Bcast) (p q : List Conn) (c : Conn), u.active = x ++ b0 :: y → b0.todo = p ++ c :: q →
          (c = k → eligible u.sender b0.msg c = false) →
          ∃ b ∈ x ++ { b0 with todo := p ++ q } :: y, k ∈ b.todo ∧ eligible s.sender b.msg k = true := by
        intro x y b0 p q c ha ht0 hc
        rw [ha] at hb'
        simp only [List.mem_append, List.mem_cons] at hb'
        rcases hb' with hb' | rfl | hb'
        · exact ⟨b', by simp [hb'], hkb, heb⟩
        · refine ⟨{ b' with todo := p ++ q }, by simp, ?_, heb⟩
          rw [ht0] at hkb
          simp only [List.mem_append, List.mem_cons] at hkb ⊢
          rcases hkb with h | h | h
          · exact .inl h
          · subst h
            have := hc rfl
            rw [i6, heb] at this
            cases this
          · exact .inr h
        · exact ⟨b', by simp [hb'], hkb, heb⟩
      have stay : ∃ b ∈ u.active, k ∈ b.todo ∧ eligible s.sender b.msg k = true := ⟨b', hb', hkb, heb⟩
      cases hstep with
      | ready => exact ⟨i1, i2, i3, i4, i5, i6, stay⟩
      | receiveSub => exact ⟨i1, i2, i3, i4, i5, i6, stay⟩
      | newClient => exact ⟨i1, i2, i3, i4, i5, i6, stay⟩
      | accept _ hc c hn =>
        refine ⟨i1, i2, ?_, i4, i5, i6, stay⟩
        have : k ≠ c := by rintro rfl; rw [i3] at hn; cases hn
        simp [setPhase, this, i3]
      | hangup _ hc c hn =>
        refine ⟨i1, i2, ?_, i4, i5, i6, stay⟩
        have : k ≠ c := by rintro rfl; exact hl.2 rfl
        simp [setPhase, this, i3]
      | announce _ hc x y o' hq hn => rw [i1] at hn; cases hn
      | exec _ hc o' ho' ha => rw [ha] at hb'; cases hb'
      | begin _ hc m hn => rw [i1] at hn; cases hn
      | write _ hc x y b0 p q c ha ht0 he0 hst hph =>
        exact ⟨i1, i2, i3, i4, i5, i6, keep x y b0 p q c ha ht0 (by rintro rfl; rw [i2] at hst; cases hst)⟩
      | writeFails _ hc x y b0 p q c ha ht0 he0 hst =>
        refine ⟨i1, i2, i3, i4, i5, i6, keep x y b0 p q c ha ht0 ?_⟩
        rintro rfl
        rcases hst with h | h
        · rw [i2] at h; cases h
        · rw [i3] at h; cases h
      | skip _ hc x y b0 p q c ha ht0 he0 =>
        exact ⟨i1, i2, i3, i4, i5, i6, keep x y b0 p q c ha ht0 (fun _ => he0)⟩
      | finish _ hc x y b0 ha ht0 =>
        refine ⟨i1, i2, i3, i4, i5, i6, ?_⟩
        rw [ha] at hb'
        simp only [List.mem_append, List.mem_cons] at hb'
        rcases hb' with hb' | rfl | hb'
        · exact ⟨b', by simp [hb'], hkb, heb⟩
        · rw [ht0] at hkb; cases hkb
        · exact ⟨b', by simp [hb'], hkb, heb⟩
      | stall _ hc c => exact ⟨i1, by simp [i2], i3, i4, i5, i6, stay⟩
      | unstall _ hc c =>
        have : k ≠ c := by rintro rfl; exact hl.1 rfl
        exact ⟨i1, by simp [this, i2], i3, i4, i5, i6, stay⟩
  obtain ⟨_, _, _, _, h1, h2, h3, b, hb, hkb, _⟩ := key
  exact ⟨h1, h2, h3, b, hb, hkb⟩

/-- Such a situation arises: a player `k` subscribes, stops reading, a chunk is broadcast and another client `d` connects. -/
theorem C74_reachable (k d : Conn) (hkd : k ≠ d) (x : QueueChunkRequest) :
    ∃ s, Reachable s ∧ s.announced = some (.add d) ∧ s.stalled k = true ∧ s.phase k = .opened ∧
      ∃ b ∈ s.active, k ∈ b.todo ∧ b.msg = .queueChunkRequest x ∧ eligible s.sender b.msg k = true := by
  have a0 : Reachable Srv.init := .refl _
  have a1 := Steps.tail a0 trivial (.accept _ rfl k rfl)
  have a2 := Steps.tail a1 trivial (.announce _ rfl [] [] (.add k) rfl rfl)
  have a3 := Steps.tail a2 trivial (.exec _ rfl (.add k) rfl rfl)
  have a4 := Steps.tail a3 trivial (.receiveSub _ rfl k AUDIO (by simp [opPhase, setPhase]))
  have a5 := Steps.tail a4 trivial (.announce _ rfl [] [] (.sub k AUDIO) rfl rfl)
  have a6 := Steps.tail a5 trivial (.exec _ rfl (.sub k AUDIO) rfl rfl)
  have a7 := Steps.tail a6 trivial (.ready _ rfl)
  have a8 := Steps.tail a7 trivial (.newClient _ rfl [] [] (k, AUDIO) rfl)
  have a9 := Steps.tail a8 trivial (.stall _ rfl k)
  have a10 := Steps.tail a9 trivial (.begin _ rfl (.queueChunkRequest x) rfl)
  have a11 := Steps.tail a10 trivial (.accept _ rfl d (by simp [opPhase, setPhase, Ne.symm hkd, Srv.init]))
  have a12 := Steps.tail a11 trivial (.announce _ rfl [] [] (.add d) rfl rfl)
  refine ⟨_, a12, rfl, ?_, ?_, _, List.mem_append_right _ (List.mem_singleton.2 rfl), ?_, rfl, ?_⟩
  · simp
  · simp [opPhase, setPhase, hkd]
  · simp [apply, addConn, Sender.subscribe, Srv.init, St.init]
  · simp [apply, addConn, Sender.subscribe, Srv.init, St.init, eligible, channelOf, isSubscribed, containsChannel, AUDIO]

/-- C74, where it holds: a stalled client alone does not keep a broadcast from the others: the write to any client that reads can
be made at any time; and as long as no change is waiting, the next broadcast can begin. -/
theorem C74_others_served_partial {s : Srv} (hc : s.crashed = false) :
    (∀ b ∈ s.active, ∀ c ∈ b.todo, eligible s.sender b.msg c = true → s.stalled c = false → s.phase c = .opened →
      ∃ t, Step .code s t ∧ t.delivered = s.delivered ++ [(c, b.id)]) ∧
    (s.announced = none → ∀ m, ∃ t, Step .world s t ∧ t.begun.length = s.begun.length + 1 ∧
      ∃ b ∈ t.active, b.id = s.begun.length ∧ b.msg = m ∧ ∀ c, c ∈ b.todo ↔ c ∈ s.sender.connections) := by
  constructor
  · intro b hb c hcb he hs hp
    obtain ⟨x, y, hxy⟩ := List.append_of_mem hb
    obtain ⟨p, q, hpq⟩ := List.append_of_mem hcb
    exact ⟨_, .write s hc x y b p q c hxy hpq he hs hp, rfl⟩
  · intro hn m
    exact ⟨_, .begin s hc m hn, by simp, ⟨s.begun.length, m, s.sender.connections⟩, by simp, rfl, rfl, fun c => Iff.rfl⟩

/-! ## C75: clients that have left -/

theorem channels_step {l : Label} {s t : Srv} (hs : Step l s t) (c : Conn) (h : (s.sender.channels c).isSome) :
    (t.sender.channels c).isSome := by
  cases hs with
  | exec _ hc o ho ha =>
    cases o with
    | add d => exact h
    | del d =>
      show ((delConn s.sender d).channels c).isSome
      have : (delConn s.sender d).channels = s.sender.channels := by simp only [delConn]; split <;> rfl
      rw [this]; exact h
    | sub d k =>
      simp only [apply, Sender.subscribe]
      split
      · split <;> rfl
      · exact h
  | _ => exact h

/-- C75 is false: what a client has subscribed to is kept for ever. -/
theorem C75_kept_for_ever {allow : Label → Prop} {s t : Srv} (hs : Steps allow s t) (c : Conn)
    (h : (s.sender.channels c).isSome) : (t.sender.channels c).isSome := by
  induction hs with
  | refl => exact h
  | tail _ _ hstep ih => exact channels_step hstep c ih

/-- C75: so the server's memory grows without bound, with no client connected: for every `n` it may keep the subscriptions of `n`
clients that have all left. -/
theorem C75_unbounded (n : Nat) : ∃ s, Reachable s ∧ s.sender.connections = [] ∧
    ∀ c, c < n → s.phase c = .gone ∧ (s.sender.channels c).isSome := by
  suffices ∃ ph chn op as, Reachable ⟨ph, ⟨[], chn⟩, true, false, [], none, [], [], fun _ => false, [], [], [], op, as⟩ ∧
      (∀ c : Nat, c < n → ph c = .gone ∧ (chn c).isSome) ∧ (∀ c : Nat, n ≤ c → ph c = .none) by
    obtain ⟨ph, chn, op, as, h1, h2, h3⟩ := this
    exact ⟨_, h1, rfl, h2⟩
  induction n with
  | zero =>
    have a0 : Reachable Srv.init := .refl _
    exact ⟨_, _, _, _, .tail a0 trivial (.ready _ rfl), by simp, fun _ _ => rfl⟩
  | succ n ih =>
    obtain ⟨ph, chn, op, as, h0, h2, h3⟩ := ih
    have a1 : Reachable ⟨setPhase ph n .accepted, ⟨[], chn⟩, true, false, [.add n], none, [], [], fun _ => false, [], [], [], op, as⟩ :=
      Steps.tail h0 trivial (.accept _ rfl n (h3 n (Nat.le_refl _)))
    have a2 : Reachable ⟨setPhase ph n .accepted, ⟨[], chn⟩, true, false, [], some (.add n), [], [], fun _ => false, [], [], [], op, as⟩ :=
      Steps.tail a1 trivial (.announce _ rfl [] [] (.add n) rfl rfl)
    generalize hp1 : setPhase ph n .accepted = p1 at a2
    have a3 : Reachable ⟨setPhase p1 n .opened, ⟨[n], chn⟩, true, false, [], none, [], [], fun _ => false, [], [], [], op ++ [.add n], as⟩ :=
      Steps.tail a2 trivial (.exec _ rfl (.add n) rfl rfl)
    have hp2 : setPhase p1 n .opened n = .opened := by simp [setPhase]
    generalize hp2e : setPhase p1 n .opened = p2 at a3 hp2
    generalize op ++ [Op.add n] = op2 at a3
    have a4 : Reachable ⟨p2, ⟨[n], chn⟩, true, false, [.sub n AUDIO], none, [], [], fun _ => false, [], [], [], op2, as ++ [(n, AUDIO)]⟩ :=
      Steps.tail a3 trivial (.receiveSub _ rfl n AUDIO hp2)
    generalize as ++ [(n, AUDIO)] = as2 at a4
    have a5 : Reachable ⟨p2, ⟨[n], chn⟩, true, false, [], some (.sub n AUDIO), [], [], fun _ => false, [], [], [], op2, as2⟩ :=
      Steps.tail a4 trivial (.announce _ rfl [] [] (.sub n AUDIO) rfl rfl)
    have a6 := Steps.tail a5 trivial (.exec _ rfl (.sub n AUDIO) rfl rfl)
    have hsub : apply ⟨[n], chn⟩ (.sub n AUDIO) = ⟨[n], (Sender.subscribe ⟨[n], chn⟩ n AUDIO).channels⟩ := rfl
    rw [hsub] at a6
    have hch : ∀ c : Nat, c ≤ n → ((Sender.subscribe ⟨[n], chn⟩ n AUDIO).channels c).isSome := by
      intro c hc
      simp only [Sender.subscribe]
      split
      · split <;> rfl
      · rename_i hne
        have hlt : c < n := by
          rcases Nat.lt_or_ge c n with h | h
          · exact h
          · exact absurd (Nat.le_antisymm hc h) hne
        exact (h2 c hlt).2
    generalize (Sender.subscribe ⟨[n], chn⟩ n AUDIO).channels = ch2 at a6 hch
    have a6' : Reachable ⟨p2, ⟨[n], ch2⟩, true, false, [], none, [], [(n, AUDIO)], fun _ => false, [], [], [], op2 ++ [.sub n AUDIO], as2⟩ := a6
    generalize op2 ++ [Op.sub n AUDIO] = op3 at a6'
    have a7 : Reachable ⟨p2, ⟨[n], ch2⟩, true, false, [], none, [], [], fun _ => false, [], [], [], op3, as2⟩ :=
      Steps.tail a6' trivial (.newClient _ rfl [] [] (n, AUDIO) rfl)
    have a8 : Reachable ⟨setPhase p2 n .closed, ⟨[n], ch2⟩, true, false, [.del n], none, [], [], fun _ => false, [], [], [], op3, as2⟩ :=
      Steps.tail a7 trivial (.hangup _ rfl n hp2)
    generalize hp3 : setPhase p2 n .closed = p3 at a8
    have a9 : Reachable ⟨p3, ⟨[n], ch2⟩, true, false, [], some (.del n), [], [], fun _ => false, [], [], [], op3, as2⟩ :=
      Steps.tail a8 trivial (.announce _ rfl [] [] (.del n) rfl rfl)
    have a10 := Steps.tail a9 trivial (.exec _ rfl (.del n) rfl rfl)
    have hdel : apply ⟨[n], ch2⟩ (.del n) = ⟨[], ch2⟩ := by simp [apply, delConn]
    rw [hdel] at a10
    refine ⟨_, _, _, _, a10, ?_, ?_⟩
    · intro c hc
      refine ⟨?_, hch c (by omega)⟩
      by_cases hn : c = n
      · simp [opPhase, setPhase, hn]
      · have := (h2 c (by omega)).1
        simp [opPhase, setPhase, hn, ← hp3, ← hp2e, ← hp1, this]
    · intro c hc
      have hn : c ≠ n := by omega
      have := h3 c (by omega)
      simp [opPhase, setPhase, hn, ← hp3, ← hp2e, ← hp1, this]

section examples
/-- A player connects, subscribes, and gets a chunk; the broadcast has finished. -/
example : ∃ s, Reachable s ∧ s.delivered = [(7, 0)] ∧ s.active = [] ∧ Settled s ∧ ∃ g, s.begun[0]? = some g ∧ g.phase 7 = .opened ∧
    Interested (fun ch => Op.sub 7 ch ∈ g.ops) g.msg := by
  have a0 : Reachable Srv.init := .refl _
  have a1 := Steps.tail a0 trivial (.accept _ rfl 7 rfl)
  have a2 := Steps.tail a1 trivial (.announce _ rfl [] [] (.add 7) rfl rfl)
  have a3 := Steps.tail a2 trivial (.exec _ rfl (.add 7) rfl rfl)
  have a4 := Steps.tail a3 trivial (.receiveSub _ rfl 7 AUDIO (by simp [opPhase, setPhase]))
  have a5 := Steps.tail a4 trivial (.announce _ rfl [] [] (.sub 7 AUDIO) rfl rfl)
  have a6 := Steps.tail a5 trivial (.exec _ rfl (.sub 7 AUDIO) rfl rfl)
  have a7 := Steps.tail a6 trivial (.ready _ rfl)
  have a8 := Steps.tail a7 trivial (.newClient _ rfl [] [] (7, AUDIO) rfl)
  have a9 := Steps.tail a8 trivial (.begin _ rfl (.queueChunkRequest {}) rfl)
  have a10 := Steps.tail a9 trivial (.write _ rfl [] [] ⟨0, .queueChunkRequest {}, [7]⟩ [] [] 7 rfl rfl rfl rfl
    (by simp [opPhase, setPhase]))
  have a11 := Steps.tail a10 trivial (.finish _ rfl [] [] ⟨0, .queueChunkRequest {}, []⟩ rfl rfl)
  exact ⟨_, a11, rfl, rfl, ⟨rfl, rfl, rfl, rfl⟩, _, rfl, by simp [opPhase, setPhase], by simp [Interested, Srv.init]⟩
end examples

end MS.ServerConn
