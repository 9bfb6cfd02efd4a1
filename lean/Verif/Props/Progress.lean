import Verif.Props.Jump
/-!
# Property C12 with interference: the stream goes on whatever the sessions do
-/
namespace MS.StreamLoop
open MS.Spec

variable {α : Type}

/-- Specification: every song of the playlist can be decoded (the playlist may be empty). -/
def AllPlayable (c : Cfg α) (songs : List String) : Prop := ∀ n ∈ songs, (c.dec n).isSome

/-- What the sessions may do: no jump to a negative position, and no song that cannot be decoded is queued. -/
def politeAct (c : Cfg α) (a : Act) : Prop :=
  (∀ p, a = .jumpWrite p → 0 ≤ p) ∧ (∀ l, a = .edit l → AllPlayable c l)

/-- Steps of the loop until it has pushed a sample, at most. -/
def togo (c : Cfg α) : Pc α → Nat
  | .brk => 1
  | .incW false _ => 2
  | .incR false => 3
  | .chk _ n ok => if ok = false ∨ n < bufSize then 4 else 9
  | .body _ => 5
  | .h3 _ => 6
  | .h2 _ => 7
  | .h1 _ => 8
  | .opening song => if (c.dec song).isSome then 9 else 14
  | .store _ song => if song = "" ∨ (c.dec song).isSome then 10 else 15
  | .top => 11
  | .incW true _ => 12
  | .incR true => 13
  | .crashed => 0

theorem togo_le (c : Cfg α) (pc : Pc α) : togo c pc ≤ 15 := by
  cases pc with
  | incR b => cases b <;> simp [togo]
  | incW b _ => cases b <;> simp [togo]
  | _ => simp only [togo] <;> first | omega | (split <;> omega)

theorem out_mono {c : Cfg α} {s s' : St α} (h : loopStep c s = some s') : s.out.length ≤ s'.out.length := by
  obtain ⟨songs, position, tokens, inflight, playing, playingLast, current, pc, out, news, pauses, blocks, cuts⟩ := s
  cases pc <;> simp only [loopStep] at h <;> grind

/-- A step of the loop pushes a sample or comes closer to it. -/
theorem togo_loop {c : Cfg α} (hb : 0 < c.brk) {s s' : St α} (hg : AllPlayable c s.songs) (hn : NonNeg s)
    (h : loopStep c s = some s') : s.out.length < s'.out.length ∨ togo c s'.pc < togo c s.pc := by
  obtain ⟨songs, position, tokens, inflight, playing, playingLast, current, pc, out, news, pauses, blocks, cuts⟩ := s
  simp only at hg
  cases pc with
  | top =>
    simp only [loopStep] at h
    split at h
    · injection h with h; subst h
      left
      have : noSongNan = 32768 := rfl
      simp only [List.length_append, List.length_replicate]; omega
    · rename_i hl
      have hne : songs ≠ [] := by intro hx; simp [hx] at hl
      obtain ⟨⟨p, hp⟩, -⟩ := hn
      simp only at hp
      subst hp
      obtain ⟨song, hs1, hs2⟩ := goGet_nat songs p hne
      rw [tmod_nat, hs2] at h
      injection h with h; subst h
      right
      have := hg song (List.mem_of_getElem? hs1)
      simp [togo, this]
  | store pos song =>
    simp only [loopStep] at h
    split at h
    · injection h with h; subst h
      left
      have : noSongNan = 32768 := rfl
      simp only [List.length_append, List.length_replicate]; omega
    · rename_i hs
      injection h with h; subst h
      right
      simp only [togo, hs, false_or]
      split <;> omega
  | opening song =>
    simp only [loopStep] at h
    split at h
    · rename_i hd
      injection h with h; subst h
      right; simp [togo, hd]
    · rename_i l hd
      injection h with h; subst h
      right; simp [togo, hd]
  | h1 rem =>
    simp only [loopStep] at h
    split at h <;> injection h with h <;> subst h <;> right <;> simp [togo]
  | h2 rem => simp only [loopStep] at h; injection h with h; subst h; right; simp [togo]
  | h3 rem => simp only [loopStep] at h; injection h with h; subst h; right; simp [togo]
  | body rem =>
    simp only [loopStep] at h
    split at h
    · injection h with h; subst h
      rcases Nat.eq_zero_or_pos rem.length with h0 | hpos
      · right; simp [togo, h0]
      · left
        have : bufSize = 512 := rfl
        simp; omega
    · injection h with h; subst h
      left
      have : bufSize = 512 := rfl
      simp only [List.length_append, List.length_replicate]; omega
  | chk rem n ok =>
    simp only [loopStep] at h
    split at h
    · injection h with h; subst h
      right; simp only [togo]; split <;> omega
    · split at h
      · rename_i hx
        injection h with h; subst h
        right; simp only [togo, if_pos hx]; omega
      · rename_i hx
        injection h with h; subst h
        right; simp only [togo, if_neg hx]; omega
  | incR skip => simp only [loopStep] at h; injection h with h; subst h; right; cases skip <;> simp [togo]
  | incW skip v => simp only [loopStep] at h; injection h with h; subst h; right; cases skip <;> simp [togo]
  | brk => simp only [loopStep] at h; injection h with h; subst h; left; simp; omega
  | crashed => simp [loopStep] at h

theorem progress_aux (c : Cfg α) (hb : 0 < c.brk) (acts : List Act) : ∀ (s s' : St α), AllPlayable c s.songs → NonNeg s →
    (∀ a ∈ acts, politeAct c a) → run c s acts = some s' →
    s.out.length ≤ s'.out.length ∧
    (togo c s.pc ≤ acts.countP (fun a => match a with | .loop => true | _ => false) → s.out.length < s'.out.length) := by
  induction acts with
  | nil =>
    intro s s' _ hn _ hr
    simp [run] at hr; subst hr
    refine ⟨Nat.le_refl _, fun h => ?_⟩
    exfalso
    obtain ⟨-, hn⟩ := hn
    cases hpc : s.pc with
    | crashed => rw [hpc] at hn; exact hn
    | incR b => rw [hpc] at h; cases b <;> simp [togo] at h
    | incW b _ => rw [hpc] at h; cases b <;> simp [togo] at h
    | opening _ => rw [hpc] at h; simp only [togo] at h; split at h <;> simp at h
    | store _ _ => rw [hpc] at h; simp only [togo] at h; split at h <;> simp at h
    | chk _ _ _ => rw [hpc] at h; simp only [togo] at h; split at h <;> simp at h
    | _ => rw [hpc] at h; simp [togo] at h
  | cons a acts ih =>
    intro s s' hg hn hf hr
    simp only [run] at hr
    split at hr
    · rename_i s1 hs1
      have hfa := hf a List.mem_cons_self
      have hn1 : NonNeg s1 := nonNeg_step hfa.1 hn hs1
      have hf1 : ∀ b ∈ acts, politeAct c b := fun b hb => hf b (List.mem_cons_of_mem _ hb)
      rcases step_cases hs1 with ⟨rfl, h⟩ | ⟨p, rfl, rfl⟩ | ⟨rfl, _, _, rfl⟩ | ⟨b, rfl, rfl⟩ | ⟨l, rfl, rfl⟩
      · have hm := out_mono h
        obtain ⟨i1, i2⟩ := ih s1 s' (by rw [songs_loop h]; exact hg) hn1 hf1 hr
        refine ⟨by omega, fun hc => ?_⟩
        simp only [List.countP_cons] at hc
        rcases togo_loop hb hg hn h with hlt | hlt
        · omega
        · have := i2 (by simp at hc; omega)
          omega
      · have := ih _ s' (by exact hg) hn1 hf1 hr
        simpa [List.countP_cons] using this
      · have := ih _ s' (by exact hg) hn1 hf1 hr
        simpa [List.countP_cons] using this
      · have := ih _ s' (by exact hg) hn1 hf1 hr
        simpa [List.countP_cons] using this
      · have := hfa.2 l rfl
        simpa [List.countP_cons] using ih _ s' this hn1 hf1 hr
    · simp at hr

/-- C12 with interference. Whatever happened before (without jumps to negative positions), once all songs of the playlist can be
decoded and as long as that stays so, the loop pushes at least one sample in any 15 of its steps, whatever the sessions do between
them: pausing, jumping and editing in any way. -/
theorem C12_progress_interference_partial (c : Cfg α) (hb : 0 < c.brk) (songs : List String) (before acts : List Act) (s s' : St α)
    (hj : ∀ p, Act.jumpWrite p ∈ before → 0 ≤ p) (h0 : run c (init songs) before = some s) (hg : AllPlayable c s.songs)
    (hf : ∀ a ∈ acts, politeAct c a) (hr : run c s acts = some s')
    (hl : 15 ≤ acts.countP (fun a => match a with | .loop => true | _ => false)) : s.out.length < s'.out.length := by
  have hn := C12_nonNeg_reachable c songs before s hj h0
  have := togo_le c s.pc
  exact (progress_aux c hb acts s s' hg hn hf hr).2 (by omega)

/-- C12 with interference, the loop is never blocked or crashed: its next step exists. -/
theorem C12_never_stuck (c : Cfg α) (songs : List String) (acts : List Act) (s : St α)
    (hj : ∀ p, Act.jumpWrite p ∈ acts → 0 ≤ p) (h : run c (init songs) acts = some s) :
    ∃ s', step c s .loop = some s' ∧ s'.pc ≠ .crashed := by
  have hn := C12_nonNeg_reachable c songs acts s hj h
  have hnc := nonNeg_notCrashed hn
  cases hs : step c s .loop with
  | none =>
    exfalso
    rw [step_loop hnc] at hs
    obtain ⟨songs', position, tokens, inflight, playing, playingLast, current, pc, out, news, pauses, blocks, cuts⟩ := s
    cases pc <;> simp only [loopStep] at hs <;> grind
  | some s' =>
    exact ⟨s', rfl, nonNeg_notCrashed (nonNeg_step (a := .loop) (by simp) hn hs)⟩

/-- Non-vacuity: jumping and pausing all the time. -/
example : ∃ s, run tinyCfg (init ["a"]) ((List.replicate 5 [Act.loop, .jumpWrite 3, .loop, .setPlaying true, .loop, .edit ["b", "c"]]).flatten) = some s ∧
    (∀ a ∈ (List.replicate 5 [Act.loop, .jumpWrite 3, .loop, .setPlaying true, .loop, .edit ["b", "c"]]).flatten, politeAct tinyCfg a) ∧
    s.out.length = 7 := by
  refine ⟨_, rfl, ?_, by decide⟩
  intro a ha
  obtain ⟨l, hl, ha⟩ := List.mem_flatten.1 ha
  rw [List.eq_of_mem_replicate hl] at ha
  simp only [List.mem_cons, List.not_mem_nil, or_false] at ha
  rcases ha with rfl | rfl | rfl | rfl | rfl | rfl <;> refine ⟨?_, ?_⟩ <;> simp [AllPlayable, tinyCfg]
  all_goals intro p hp; omega

end MS.StreamLoop
