import Verif.Model.PlayerStart
import Verif.Props.Sender
/-!
# Properties C86 and C87: a player takes over the server's volume, and loses no chunk, when it starts
-/
namespace MS.PlayerStart
open MS.Proto MS.Sender

/-! ## Specification: what a schedule contains -/

/-- The messages that arrived, in order. -/
def received (acts : List Act) : List Msg := acts.filterMap (fun | .receive m => some m | _ => none)

/-- The messages whose handlers have run, in order. -/
def handled (acts : List Act) : List Msg := acts.filterMap (fun | .run c => some c.message | _ => none)

/-- The volumes among messages. -/
def volumes (ms : List Msg) : List UInt64 := ms.filterMap (fun | .setVolumeRequest r => some r.volume | _ => none)

/-- The chunks among messages. -/
def chunks (ms : List Msg) : List QueueChunkRequest := ms.filterMap (fun | .queueChunkRequest r => some r | _ => none)

/-! ## Lemmas -/

theorem run_append (s : St) (a b : List Act) : run s (a ++ b) = (run s a).bind (fun t => run t b) := by
  induction a generalizing s with
  | nil => rfl
  | cons x a ih =>
    simp only [List.cons_append, run]
    cases step s x with
    | none => rfl
    | some t => exact ih t

theorem run_split {s t : St} {a b : List Act} (h : run s (a ++ b) = some t) : ∃ u, run s a = some u ∧ run u b = some t := by
  rw [run_append] at h
  cases hu : run s a with
  | none => rw [hu] at h; simp at h
  | some u => rw [hu] at h; exact ⟨u, rfl, h⟩

theorem handled_append (a b : List Act) : handled (a ++ b) = handled a ++ handled b := List.filterMap_append
theorem received_append (a b : List Act) : received (a ++ b) = received a ++ received b := List.filterMap_append
theorem volumes_append (a b : List Msg) : volumes (a ++ b) = volumes a ++ volumes b := List.filterMap_append
theorem chunks_append (a b : List Msg) : chunks (a ++ b) = chunks a ++ chunks b := List.filterMap_append

/-- Every goroutine runs the handler of its message. -/
def Own (s : St) : Prop := ∀ c ∈ s.started, handle c.message 0 = some c

theorem handle_message {m : Msg} {c : Call} (h : handle m 0 = some c) : c.message = m := ((C29_own_handler m 0).1 c h).1

theorem effect_started (s : St) (c : Call) : (effect s c).started = s.started := by
  unfold effect
  split
  · rfl
  · split <;> rfl
  · rfl

theorem effect_pc (s : St) (c : Call) : (effect s c).pc = s.pc := by
  unfold effect
  split
  · rfl
  · split <;> rfl
  · rfl

theorem own_step {s t : St} {a : Act} (h : Own s) (hs : step s a = some t) : Own t := by
  cases a with
  | initVolume => simp only [step] at hs; split at hs <;> simp at hs; subst hs; exact h
  | initStreamer => simp only [step] at hs; split at hs <;> simp at hs; subst hs; exact h
  | subscribe => simp only [step] at hs; split at hs <;> simp at hs; subst hs; exact h
  | receive m =>
    simp only [step] at hs
    split at hs <;> simp at hs
    subst hs
    intro c hc
    simp only [List.mem_append, Option.mem_toList] at hc
    rcases hc with hc | hc
    · exact h c hc
    · rw [handle_message hc]; exact hc
  | run c =>
    simp only [step] at hs
    split at hs <;> simp at hs
    subst hs
    intro x hx
    rw [effect_started] at hx
    exact h x (List.mem_of_mem_erase hx)

theorem own_run {s t : St} {as : List Act} (h : Own s) (hs : run s as = some t) : Own t := by
  induction as generalizing s with
  | nil => simp [run] at hs; exact hs ▸ h
  | cons a as ih =>
    simp only [run] at hs
    cases hu : step s a with
    | none => rw [hu] at hs; simp at hs
    | some u => rw [hu] at hs; exact ih (own_step h hu) hs

theorem own_init : Own init := fun c hc => by simp [init] at hc

/-- The volume after handling a call of a message. -/
theorem effect_volume {s : St} {c : Call} (h : handle c.message 0 = some c) :
    (effect s c).volume = (volumes [c.message]).getLast?.getD s.volume := by
  obtain ⟨hd, m, sd⟩ := c
  cases m <;> simp [handle] at h <;> (obtain ⟨rfl, rfl⟩ := h) <;> simp [effect, volumes]
  split <;> rfl

theorem effect_chunks {s : St} {c : Call} (h : handle c.message 0 = some c) :
    (effect s c).chunks = s.chunks.map (· ++ chunks [c.message]) := by
  obtain ⟨hd, m, sd⟩ := c
  cases m <;> simp [handle] at h <;> (obtain ⟨rfl, rfl⟩ := h) <;> simp [effect, chunks]
  split <;> rename_i hc <;> simp [hc]

theorem getLast_getD_append (a b : List UInt64) (v : UInt64) :
    (a ++ b).getLast?.getD v = b.getLast?.getD (a.getLast?.getD v) := by
  rw [List.getLast?_append]
  cases b.getLast? <;> rfl

theorem pc_step {s t : St} {a : Act} (hs : step s a = some t) : (s.pc ≠ .start → t.pc ≠ .start) ∧
    (s.pc = .ready → t.pc = .ready) := by
  cases a <;> simp only [step] at hs <;> split at hs <;> simp at hs <;> subst hs <;> simp_all [effect_pc]

/-- Once `Init` has written the volume, the volume is the last one handled since. -/
theorem volume_from {s t : St} {as : List Act} (h : Own s) (hp : s.pc ≠ .start) (hr : run s as = some t) :
    t.volume = (volumes (handled as)).getLast?.getD s.volume := by
  induction as generalizing s with
  | nil => simp [run] at hr; subst hr; rfl
  | cons a as ih =>
    simp only [run] at hr
    cases hu : step s a with
    | none => rw [hu] at hr; simp at hr
    | some u =>
      rw [hu] at hr
      have := ih (own_step h hu) ((pc_step hu).1 hp) hr
      rw [this, show a :: as = [a] ++ as from rfl, handled_append, volumes_append, getLast_getD_append]
      congr 1
      cases a with
      | initVolume => simp only [step] at hu; rw [if_neg hp] at hu; simp at hu
      | initStreamer => simp only [step] at hu; split at hu <;> simp at hu; subst hu; rfl
      | subscribe => simp only [step] at hu; split at hu <;> simp at hu; subst hu; rfl
      | receive m => simp only [step] at hu; split at hu <;> simp at hu; subst hu; rfl
      | run c =>
        simp only [step] at hu
        split at hu <;> simp at hu
        rename_i hc
        subst hu
        exact effect_volume (h c hc)

theorem chunks_from {s t : St} {as : List Act} (h : Own s) (hp : s.pc = .ready) (hr : run s as = some t) :
    t.chunks = s.chunks.map (· ++ chunks (handled as)) := by
  induction as generalizing s with
  | nil => simp [run] at hr; subst hr; simp [handled, chunks]
  | cons a as ih =>
    simp only [run] at hr
    cases hu : step s a with
    | none => rw [hu] at hr; simp at hr
    | some u =>
      rw [hu] at hr
      have := ih (own_step h hu) ((pc_step hu).2 hp) hr
      rw [this, show a :: as = [a] ++ as from rfl, handled_append, chunks_append]
      have hh : u.chunks = s.chunks.map (· ++ chunks (handled [a])) := by
        cases a with
        | initVolume => simp only [step] at hu; rw [hp] at hu; simp at hu
        | initStreamer => simp only [step] at hu; rw [hp] at hu; simp at hu
        | subscribe => simp only [step] at hu; split at hu <;> simp at hu; subst hu; simp [handled, chunks]
        | receive m => simp only [step] at hu; split at hu <;> simp at hu; subst hu; simp [handled, chunks]
        | run c =>
          simp only [step] at hu
          split at hu <;> simp at hu
          rename_i hc
          subst hu
          exact effect_chunks (h c hc)
      rw [hh]
      cases s.chunks <;> simp

/-- Every received message with a handler is handled once or still waiting. -/
theorem accounted {s t : St} {as : List Act} (h : Own s) (hr : run s as = some t) :
    (s.started.map Call.message ++ (received as).filterMap (fun m => (handle m 0).map Call.message)).Perm
      (t.started.map Call.message ++ handled as) := by
  induction as generalizing s with
  | nil => simp [run] at hr; subst hr; simp [received, handled]
  | cons a as ih =>
    simp only [run] at hr
    cases hu : step s a with
    | none => rw [hu] at hr; simp at hr
    | some u =>
      rw [hu] at hr
      have := ih (own_step h hu) hr
      rw [show a :: as = [a] ++ as from rfl, handled_append, received_append, List.filterMap_append]
      cases a with
      | initVolume => simp only [step] at hu; split at hu <;> simp at hu; subst hu; exact this
      | initStreamer => simp only [step] at hu; split at hu <;> simp at hu; subst hu; exact this
      | subscribe => simp only [step] at hu; split at hu <;> simp at hu; subst hu; exact this
      | receive m =>
        simp only [step] at hu
        split at hu <;> simp at hu
        subst hu
        simp only [List.map_append] at this
        rw [show handled [Act.receive m] = [] from rfl, List.nil_append, show received [Act.receive m] = [m] from rfl,
          ← List.append_assoc]
        have e : List.filterMap (fun m => (handle m 0).map Call.message) [m] = (handle m 0).toList.map Call.message := by
          cases hm : handle m 0 <;> simp [hm]
        rw [e]
        exact this
      | run c =>
        simp only [step] at hu
        split at hu <;> simp at hu
        rename_i hc
        subst hu
        rw [effect_started] at this
        rw [show handled [Act.run c] = [c.message] from rfl, show received [Act.run c] = [] from rfl, List.filterMap_nil,
          List.nil_append]
        have h1 : (s.started.map Call.message).Perm (c.message :: (s.started.erase c).map Call.message) :=
          (List.perm_cons_erase hc).map Call.message
        refine (h1.append_right _).trans ?_
        rw [List.cons_append]
        refine (this.cons _).trans ?_
        simp only [List.singleton_append]
        exact List.perm_middle.symm

/-! ## C86 -/

/-- C86, exactly: after `Init` has begun the volume is that of the last volume message handled *since then*, and .1
if there was none; volume messages handled before are overwritten. For every schedule. -/
theorem C86_exact (pre post : List Act) (s : St) (h : run init (pre ++ .initVolume :: post) = some s) :
    s.volume = (volumes (handled post)).getLast?.getD initialVolume := by
  obtain ⟨u, h1, h2⟩ := run_split h
  simp only [run] at h2
  cases hv : step u .initVolume with
  | none => rw [hv] at h2; simp at h2
  | some v =>
    rw [hv] at h2
    have hu := own_run own_init h1
    simp only [step] at hv
    split at hv <;> simp at hv
    subst hv
    exact volume_from (s := { u with pc := .volumeSet, volume := initialVolume }) hu (by simp) h2

/-- C86 fails: for every volume `w` of the server there is a start of the player in which the server's volume message
is received and handled, nothing is left to be handled, the player is ready to play - and its volume is .1, until the
next volume command. -/
theorem C86_volume_overwritten (w : UInt64) :
    ∃ acts s, run init acts = some s ∧ received acts = [.setVolumeRequest ⟨w⟩] ∧ s.pc = .ready ∧ s.started = [] ∧
      s.volume = initialVolume ∧
      ∀ more t, run init (acts ++ more) = some t → volumes (handled more) = [] → t.volume = initialVolume := by
  let c : Call := ⟨.HandleSetVolumeRequest, .setVolumeRequest ⟨w⟩, 0⟩
  refine ⟨[.subscribe, .receive (.setVolumeRequest ⟨w⟩), .run c, .initVolume, .initStreamer],
    ⟨.ready, true, [], initialVolume, some []⟩, ?_, rfl, rfl, rfl, rfl, ?_⟩
  · simp [run, step, init, handle, audio, c, effect]
  · intro more t ht hm
    have := C86_exact [.subscribe, .receive (.setVolumeRequest ⟨w⟩), .run c] (.initStreamer :: more) t ht
    rw [this, show Act.initStreamer :: more = [.initStreamer] ++ more from rfl, handled_append]
    rw [show handled [Act.initStreamer] = [] from rfl, List.nil_append, hm]
    rfl

/-- C86, the part that holds: if no volume message was handled before `Init` wrote its own, and the server has sent one
volume `w` and everything received has been handled, the player's volume is `w`.
Missing from the full property: volume messages handled earlier (`C86_volume_overwritten`). -/
theorem C86_takes_over_partial (pre post : List Act) (s : St) (w : UInt64)
    (h : run init (pre ++ .initVolume :: post) = some s) (hpre : volumes (handled pre) = [])
    (hdone : s.started = []) (hone : volumes (received (pre ++ .initVolume :: post)) = [w]) : s.volume = w := by
  rw [C86_exact pre post s h]
  have ha := accounted own_init h
  rw [hdone] at ha
  simp only [init, List.map_nil, List.nil_append] at ha
  have hv := ha.filterMap (fun | .setVolumeRequest r => some r.volume | _ => none)
  have e : ∀ ms : List Msg, (ms.filterMap (fun m => (handle m 0).map Call.message)).filterMap
      (fun | .setVolumeRequest r => some r.volume | _ => none) = volumes ms := by
    intro ms
    unfold volumes
    rw [List.filterMap_filterMap]
    congr 1
    funext m
    cases m <;> rfl
  rw [e, hone] at hv
  have e2 : (handled (pre ++ .initVolume :: post)).filterMap
      (fun | .setVolumeRequest r => some r.volume | _ => none) = volumes (handled post) := by
    rw [handled_append, show Act.initVolume :: post = [.initVolume] ++ post from rfl, handled_append,
      show handled [Act.initVolume] = [] from rfl, List.nil_append]
    exact (volumes_append _ _).trans (by rw [hpre]; rfl)
  rw [e2] at hv
  rw [List.perm_singleton.1 hv.symm]
  rfl

/-! ## C87 -/

/-- C87, exactly: the chunks queued for playing are those handled after the streamer was created, in the order of
handling. For every schedule. -/
theorem C87_exact (pre post : List Act) (s : St) (h : run init (pre ++ .initStreamer :: post) = some s) :
    s.chunks = some (chunks (handled post)) := by
  obtain ⟨u, h1, h2⟩ := run_split h
  simp only [run] at h2
  cases hv : step u .initStreamer with
  | none => rw [hv] at h2; simp at h2
  | some v =>
    rw [hv] at h2
    have hu := own_run own_init h1
    simp only [step] at hv
    split at hv <;> simp at hv
    subst hv
    have := chunks_from (s := { u with pc := .ready, chunks := some [] }) hu rfl h2
    simpa using this

/-- C87 fails: every chunk can be lost. The player has subscribed, the chunk is received and handled, the player gets
ready, nothing is left to be handled, and the chunk is not queued. -/
theorem C87_chunk_lost (r : QueueChunkRequest) :
    ∃ acts s, run init acts = some s ∧ received acts = [.queueChunkRequest r] ∧ s.pc = .ready ∧ s.started = [] ∧
      s.chunks = some [] := by
  let c : Call := ⟨.HandleQueueChunkRequest, .queueChunkRequest r, 0⟩
  refine ⟨[.subscribe, .initVolume, .receive (.queueChunkRequest r), .run c, .initStreamer],
    ⟨.ready, true, [], initialVolume, some []⟩, ?_, rfl, rfl, rfl, rfl⟩
  simp [run, step, init, handle, audio, c, effect]

/-- C87, the part that holds: if no chunk was handled before the streamer was created and everything received has been
handled, every received chunk is queued exactly once.
Missing from the full property: chunks handled earlier (`C87_chunk_lost`). -/
theorem C87_all_queued_partial (pre post : List Act) (s : St) (h : run init (pre ++ .initStreamer :: post) = some s)
    (hpre : chunks (handled pre) = []) (hdone : s.started = []) :
    ∃ q, s.chunks = some q ∧ q.Perm (chunks (received (pre ++ .initStreamer :: post))) := by
  refine ⟨_, C87_exact pre post s h, ?_⟩
  have ha := accounted own_init h
  rw [hdone] at ha
  simp only [init, List.map_nil, List.nil_append] at ha
  have hv := ha.filterMap (fun | .queueChunkRequest r => some r | _ => none)
  have e : ∀ ms : List Msg, (ms.filterMap (fun m => (handle m 0).map Call.message)).filterMap
      (fun | .queueChunkRequest r => some r | _ => none) = chunks ms := by
    intro ms
    unfold chunks
    rw [List.filterMap_filterMap]
    congr 1
    funext m
    cases m <;> rfl
  rw [e] at hv
  have e2 : (handled (pre ++ .initStreamer :: post)).filterMap
      (fun | .queueChunkRequest r => some r | _ => none) = chunks (handled post) := by
    rw [handled_append, show Act.initStreamer :: post = [.initStreamer] ++ post from rfl, handled_append,
      show handled [Act.initStreamer] = [] from rfl, List.nil_append]
    exact (chunks_append _ _).trans (by rw [hpre]; rfl)
  rw [e2] at hv
  exact hv.symm

/-- C86/C87: before the player has subscribed it can have received neither volume nor chunks. -/
theorem C87_nothing_before_subscription (acts : List Act) (s : St) (h : run init acts = some s)
    (hs : Act.subscribe ∉ acts) : volumes (received acts) = [] ∧ chunks (received acts) = [] := by
  have key : ∀ (acts : List Act) (s t : St), run s acts = some t → s.subscribed = false → Act.subscribe ∉ acts →
      ∀ m ∈ received acts, audio m = false := by
    intro acts
    induction acts with
    | nil => intro s t _ _ _ m hm; simp [received] at hm
    | cons a acts ih =>
      intro s t hr hf hn m hm
      simp only [run] at hr
      cases hu : step s a with
      | none => rw [hu] at hr; simp at hr
      | some u =>
        rw [hu] at hr
        simp only [List.mem_cons, not_or] at hn
        have hfu : u.subscribed = false ∧ (∀ m, a = .receive m → audio m = false) := by
          cases a with
          | subscribe => exact absurd rfl hn.1
          | receive m' =>
            simp only [step] at hu
            split at hu <;> simp at hu
            rename_i hh
            subst hu
            simp [hf] at hh
            exact ⟨hf, fun m e => by cases e; exact hh⟩
          | run c =>
            simp only [step] at hu
            split at hu <;> simp at hu
            subst hu
            refine ⟨?_, fun m e => by cases e⟩
            unfold effect
            split
            · exact hf
            · split <;> exact hf
            · exact hf
          | initVolume => simp only [step] at hu; split at hu <;> simp at hu; subst hu; exact ⟨hf, fun m e => by cases e⟩
          | initStreamer => simp only [step] at hu; split at hu <;> simp at hu; subst hu; exact ⟨hf, fun m e => by cases e⟩
        rw [show a :: acts = [a] ++ acts from rfl, received_append, List.mem_append] at hm
        rcases hm with hm | hm
        · cases a with
          | receive m' =>
            simp [received] at hm
            exact hfu.2 m (by rw [hm])
          | _ => simp [received] at hm
        · exact ih u t hr hfu.1 hn.2 m hm
  have hall := key acts init s h rfl hs
  constructor
  · unfold volumes
    rw [List.filterMap_eq_nil_iff]
    intro m hm
    have := hall m hm
    cases m <;> simp_all [audio]
  · unfold chunks
    rw [List.filterMap_eq_nil_iff]
    intro m hm
    have := hall m hm
    cases m <;> simp_all [audio]

/-- C86: before `Init` has begun the volume is that of the last volume message handled, and 0 if there was none. -/
theorem C86_before_init (acts : List Act) (s : St) (h : run init acts = some s) (hn : Act.initVolume ∉ acts) :
    s.volume = (volumes (handled acts)).getLast?.getD 0 := by
  have key : ∀ (acts : List Act) (s t : St), Own s → Act.initVolume ∉ acts → run s acts = some t →
      t.volume = (volumes (handled acts)).getLast?.getD s.volume := by
    intro acts
    induction acts with
    | nil => intro s t _ _ hr; simp [run] at hr; subst hr; rfl
    | cons a as ih =>
      intro s t ho hn hr
      simp only [List.mem_cons, not_or] at hn
      simp only [run] at hr
      cases hu : step s a with
      | none => rw [hu] at hr; simp at hr
      | some u =>
        rw [hu] at hr
        have := ih u t (own_step ho hu) hn.2 hr
        rw [this, show a :: as = [a] ++ as from rfl, handled_append, volumes_append, getLast_getD_append]
        congr 1
        cases a with
        | initVolume => exact absurd rfl hn.1
        | initStreamer => simp only [step] at hu; split at hu <;> simp at hu; subst hu; rfl
        | subscribe => simp only [step] at hu; split at hu <;> simp at hu; subst hu; rfl
        | receive m => simp only [step] at hu; split at hu <;> simp at hu; subst hu; rfl
        | run c =>
          simp only [step] at hu
          split at hu <;> simp at hu
          rename_i hc
          subst hu
          exact effect_volume (ho c hc)
  exact key acts init s own_init hn h

/-- C87: what does not come through the audio channel - everything but volumes and chunks - can be received at any
time, also before the subscription. -/
theorem C87_others_any_time (acts : List Act) (s : St) (m : Msg) (h : run init acts = some s)
    (hv : volumes [m] = []) (hc : chunks [m] = []) : (run init (acts ++ [.receive m])).isSome := by
  rw [run_append, h]
  cases m <;> simp_all [volumes, chunks, run, step, audio]

/-- A start as intended: the volume and both chunks arrive after `Init`, the chunks are handled in the wrong order. -/
def goodStart : List Act :=
  let a : QueueChunkRequest := ⟨0, 0, [], [], 0⟩
  let b : QueueChunkRequest := ⟨4, 1, [], [], 100⟩
  [.subscribe, .initVolume, .receive (.setVolumeRequest ⟨7⟩), .run ⟨.HandleSetVolumeRequest, .setVolumeRequest ⟨7⟩, 0⟩,
    .initStreamer, .receive (.queueChunkRequest a), .receive (.queueChunkRequest b),
    .run ⟨.HandleQueueChunkRequest, .queueChunkRequest b, 0⟩, .run ⟨.HandleQueueChunkRequest, .queueChunkRequest a, 0⟩]

/-- `goodStart` meets the hypotheses of `C86_takes_over_partial` and `C87_all_queued_partial`. -/
example : (run init goodStart).map (fun s => (s.started, s.volume, s.chunks)) =
      some ([], 7, some [⟨4, 1, [], [], 100⟩, ⟨0, 0, [], [], 0⟩]) ∧
    volumes (received goodStart) = [7] := by decide

end MS.PlayerStart
