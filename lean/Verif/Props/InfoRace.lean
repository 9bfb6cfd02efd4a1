import Verif.Model.InfoRace
import Verif.Props.Infoer
/-!
# Property C100: what is displayed is consistent although messages arrive while it is computed
-/
set_option linter.unusedSimpArgs false
set_option linter.unusedVariables false
namespace MS.InfoRace
open MS.Infoer

variable {σ : Type}

/-! ## Specification -/

/-- A message as an event of a one-thing-at-a-time history. -/
def toEv : Msg σ → Ev σ
  | .song m => .song m
  | .chunk m => .chunk m
  | .pause m => .pause m

/-- `h` is a one-thing-at-a-time history of the same messages and displays: a message received while the display was
computed (in any of the four gaps) is put before or after that display, all others stay where they are. -/
inductive OneAtATime : List (Event σ) → List (Ev σ) → Prop
  | nil : OneAtATime [] []
  | msg {m : Msg σ} {evs h} (r : OneAtATime evs h) : OneAtATime (.msg m :: evs) (toEv m :: h)
  | info {now m0 m1 m2 m3 evs h} {before after : List (Msg σ)} (hp : (before ++ after).Perm (m0 ++ m1 ++ m2 ++ m3))
      (r : OneAtATime evs h) :
      OneAtATime (.info now m0 m1 m2 m3 :: evs) (before.map toEv ++ .query now :: (after.map toEv ++ h))

def songsM (ms : List (Msg σ)) : List (Song σ) := ms.filterMap (fun | .song m => some m | _ => none)
def chunksM (ms : List (Msg σ)) : List Chunk := ms.filterMap (fun | .chunk m => some m | _ => none)
def pausesM (ms : List (Msg σ)) : List Toggle := ms.filterMap (fun | .pause m => some m | _ => none)

/-- All messages received, in order. -/
def received : List (Event σ) → List (Msg σ)
  | [] => []
  | .msg m :: evs => m :: received evs
  | .info _ m0 m1 m2 m3 :: evs => (m0 ++ m1 ++ m2 ++ m3) ++ received evs

/-- The clock readings of the displays. -/
def readings : List (Event σ) → List Int
  | [] => []
  | .msg _ :: evs => readings evs
  | .info now _ _ _ _ :: evs => now :: readings evs

/-- No chunk message handled between removing the old chunks and reading the position is itself about a chunk that has
ended. -/
def NoLateChunk (rate : Nat) (evs : List (Event σ)) : Prop :=
  ∀ now m0 m1 m2 m3, Event.info now m0 m1 m2 m3 ∈ evs → ∀ c ∈ chunksM m0, now ≤ c.endTime rate

/-! ## Sorted insertion -/

inductive Inserts {α : Type} (key : α → Nat) : List α → List α → List α → Prop
  | nil (l) : Inserts key l [] l
  | cons {l m l1 ms l2} (h : SortedBy key (l ++ [m]) l1) (r : Inserts key l1 ms l2) : Inserts key l (m :: ms) l2

theorem exists_sorted {α : Type} (key : α → Nat) (l0 : List α) : ∃ l, SortedBy key l0 l := by
  refine ⟨l0.mergeSort (fun a b => decide (key a ≤ key b)), List.mergeSort_perm _ _, ?_⟩
  have := List.pairwise_mergeSort (le := fun a b => decide (key a ≤ key b))
    (by intro a b c h1 h2; simp at h1 h2 ⊢; omega) (by intro a b; simp; omega) l0
  exact this.imp (fun h => by simpa using h)

theorem exists_inserts {α : Type} (key : α → Nat) (ms : List α) : ∀ l, ∃ l', Inserts key l ms l' := by
  induction ms with
  | nil => exact fun l => ⟨l, .nil l⟩
  | cons m ms ih =>
    intro l
    obtain ⟨l1, h1⟩ := exists_sorted key (l ++ [m])
    obtain ⟨l2, h2⟩ := ih l1
    exact ⟨l2, .cons h1 h2⟩

theorem inserts_perm {α : Type} {key : α → Nat} {l ms l' : List α} (h : Inserts key l ms l') : l'.Perm (l ++ ms) := by
  induction h with
  | nil l => simp
  | @cons l m l1 ms l2 h r ih =>
    refine ih.trans ((h.1.append_right ms).trans ?_)
    simp

theorem inserts_append {α : Type} {key : α → Nat} {l a b l' : List α} :
    Inserts key l (a ++ b) l' ↔ ∃ l1, Inserts key l a l1 ∧ Inserts key l1 b l' := by
  induction a generalizing l with
  | nil => exact ⟨fun h => ⟨l, .nil l, h⟩, fun ⟨l1, h1, h2⟩ => by cases h1; exact h2⟩
  | cons m a ih =>
    constructor
    · intro h
      cases h with | cons h r =>
      obtain ⟨l1, h1, h2⟩ := ih.1 r
      exact ⟨l1, .cons h h1, h2⟩
    · rintro ⟨l1, h1, h2⟩
      cases h1 with | cons h r => exact .cons h (ih.2 ⟨l1, r, h2⟩)

/-- Distinct keys among what is there and what is to come. -/
def Dist {α : Type} (key : α → Nat) (l : List α) : Prop := l.Pairwise (fun a b => key a ≠ key b)

theorem dist_perm {α : Type} {key : α → Nat} {a b : List α} (h : a.Perm b) : Dist key a ↔ Dist key b :=
  h.pairwise_iff (fun h => Ne.symm h)

theorem inserts_strict {α : Type} {key : α → Nat} {l ms l' : List α} (h : Inserts key l ms l')
    (hs : l.Pairwise (fun a b => key a < key b)) (hd : Dist key (l ++ ms)) : l'.Pairwise (fun a b => key a < key b) := by
  induction h with
  | nil l => exact hs
  | @cons l m l1 ms l2 h r ih =>
    rw [show l ++ m :: ms = (l ++ [m]) ++ ms by simp] at hd
    refine ih (sorted_strict h (List.pairwise_append.1 hd).1) ?_
    exact (dist_perm (h.1.append_right ms)).2 hd

theorem arrive_inserts {s s' : State σ} {ms : List (Msg σ)} (h : Arrive s ms s') :
    Inserts Song.startIndex s.songs (songsM ms) s'.songs ∧ Inserts Chunk.startIndex s.chunks (chunksM ms) s'.chunks ∧
      Inserts Toggle.toggleIndex s.pauses (pausesM ms) s'.pauses := by
  induction h with
  | nil s => exact ⟨.nil _, .nil _, .nil _⟩
  | @cons s m s1 ms s2 h r ih =>
    obtain ⟨i1, i2, i3⟩ := ih
    cases h with
    | song h =>
      obtain ⟨h1, h2, h3⟩ := h
      rw [h2] at i2; rw [h3] at i3
      exact ⟨.cons h1 i1, i2, i3⟩
    | chunk h =>
      obtain ⟨h1, h2, h3⟩ := h
      rw [h2] at i1; rw [h3] at i3
      exact ⟨i1, .cons h1 i2, i3⟩
    | pause h =>
      obtain ⟨h1, h2, h3⟩ := h
      rw [h2] at i1; rw [h3] at i2
      exact ⟨i1, i2, .cons h1 i3⟩

/-- Feeding messages to the infoer that keeps everything. -/
theorem keep_msgs {rate : Nat} (ms : List (Msg σ)) : ∀ {S : List (Song σ)} {C : List Chunk} {P : List Toggle}
    {S' : List (Song σ)} {C' : List Chunk} {P' : List Toggle} {rest : List (Ev σ)} {outs : List (PlaybackInfo σ)} {s2 : State σ},
    Inserts Song.startIndex S (songsM ms) S' → Inserts Chunk.startIndex C (chunksM ms) C' →
    Inserts Toggle.toggleIndex P (pausesM ms) P' → KeepRun rate ⟨S', C', P'⟩ rest outs s2 →
    KeepRun rate ⟨S, C, P⟩ (ms.map toEv ++ rest) outs s2 := by
  induction ms with
  | nil => intro S C P S' C' P' rest outs s2 h1 h2 h3 hk; cases h1; cases h2; cases h3; exact hk
  | cons m ms ih =>
    intro S C P S' C' P' rest outs s2 h1 h2 h3 hk
    cases m with
    | song m =>
      cases h1 with | cons h r =>
      exact .song (s1 := ⟨_, C, P⟩) ⟨h, rfl, rfl⟩ (ih r h2 h3 hk)
    | chunk m =>
      cases h2 with | cons h r =>
      exact .chunk (s1 := ⟨S, _, P⟩) ⟨h, rfl, rfl⟩ (ih h1 r h3 hk)
    | pause m =>
      cases h3 with | cons h r =>
      exact .pause (s1 := ⟨S, C, _⟩) ⟨h, rfl, rfl⟩ (ih h1 h2 r hk)

/-! ## The pruning infoer against one that keeps everything, list by list -/

/-- chunks -/
def SimC (rate : Nat) (t : Int) (full act : List Chunk) : Prop :=
  act.Sublist full ∧ (∀ c ∈ full, c ∉ act → c.endTime rate < t) ∧ full.Pairwise (fun a b => a.startIndex < b.startIndex)

/-- toggles -/
def SimP (lo : Nat) (full act : List Toggle) : Prop :=
  full.Pairwise (fun a b => a.toggleIndex < b.toggleIndex) ∧ (act = full ∨ ∃ P r Q, full = P ++ r :: Q ∧ act.Sublist full ∧
    (r :: Q).Sublist act ∧ r.playing = true ∧ r.toggleIndex < lo)

theorem simC_inserts {rate : Nat} {t : Int} {full act ms full' act' : List Chunk} (h : SimC rate t full act)
    (hd : Dist Chunk.startIndex (full ++ ms)) (hf : Inserts Chunk.startIndex full ms full')
    (ha : Inserts Chunk.startIndex act ms act') : SimC rate t full' act' := by
  obtain ⟨h1, h2, h3⟩ := h
  have hfs := inserts_strict hf h3 hd
  have has := inserts_strict ha (h3.sublist h1) (hd.sublist (List.Sublist.append_right h1 _))
  have hfp := inserts_perm hf
  have hap := inserts_perm ha
  refine ⟨strict_sublist has hfs ?_, ?_, hfs⟩
  · intro x hx
    rw [hap.mem_iff, List.mem_append] at hx
    rw [hfp.mem_iff, List.mem_append]
    exact hx.imp (fun h => h1.subset h) id
  · intro c hc hn
    rw [hfp.mem_iff, List.mem_append] at hc
    rw [hap.mem_iff, List.mem_append] at hn
    rcases hc with hc | hc
    · exact h2 c hc (fun h => hn (.inl h))
    · exact absurd (.inr hc) hn

theorem simP_inserts {lo : Nat} {full act ms full' act' : List Toggle} (h : SimP lo full act)
    (hd : Dist Toggle.toggleIndex (full ++ ms)) (hf : Inserts Toggle.toggleIndex full ms full')
    (ha : Inserts Toggle.toggleIndex act ms act') : SimP lo full' act' := by
  obtain ⟨h1, h2⟩ := h
  have hfs := inserts_strict hf h1 hd
  have hfp := inserts_perm hf
  have hap := inserts_perm ha
  refine ⟨hfs, ?_⟩
  rcases h2 with rfl | ⟨P, r, Q, g1, g2, g3, g4, g5⟩
  · left
    exact strict_eq (inserts_strict ha h1 hd) hfs (fun x => by rw [hap.mem_iff, hfp.mem_iff])
  · right
    have has := inserts_strict ha (h1.sublist g2) (hd.sublist (List.Sublist.append_right g2 _))
    have hr2 : r ∈ full' := hfp.symm.subset (by rw [g1]; simp)
    obtain ⟨P', Q', e2⟩ := List.append_of_mem hr2
    refine ⟨P', r, Q', e2, ?_, ?_, g4, g5⟩
    · refine strict_sublist has hfs (fun x hx => ?_)
      rw [hap.mem_iff, List.mem_append] at hx
      rw [hfp.mem_iff, List.mem_append]
      exact hx.imp (fun h => g2.subset h) id
    · rw [e2] at hfs
      have hsuf := (List.pairwise_append.1 hfs).2.1
      refine strict_sublist hsuf has (fun x hx => ?_)
      have hxr : r.toggleIndex ≤ x.toggleIndex := by
        rcases List.mem_cons.1 hx with rfl | h'
        · exact Nat.le_refl _
        · exact Nat.le_of_lt ((List.pairwise_cons.1 hsuf).1 x h')
      have hx2 : x ∈ full ++ ms := hfp.subset (by rw [e2]; exact List.mem_append_right _ hx)
      rw [hap.mem_iff, List.mem_append]
      rcases List.mem_append.1 hx2 with h' | h'
      · left
        rw [g1] at h' h1
        rcases List.mem_append.1 h' with h' | h'
        · exact absurd ((List.pairwise_append.1 h1).2.2 x h' r (by simp)) (by omega)
        · exact g3.subset h'
      · exact .inr h'

theorem simP_mono {lo lo' : Nat} {full act : List Toggle} (h : SimP lo full act) (hl : lo ≤ lo') : SimP lo' full act := by
  obtain ⟨h1, h2⟩ := h
  refine ⟨h1, ?_⟩
  rcases h2 with h2 | ⟨P, r, Q, g1, g2, g3, g4, g5⟩
  · exact .inl h2
  · exact .inr ⟨P, r, Q, g1, g2, g3, g4, by omega⟩

theorem simP_sub {lo : Nat} {full act : List Toggle} (h : SimP lo full act) : act.Sublist full := by
  rcases h.2 with h2 | ⟨P, r, Q, g1, g2, _⟩
  · rw [h2]; exact List.Sublist.refl _
  · exact g2

theorem simP_cut {lo start : Nat} {full act : List Toggle} (h : SimP lo full act) :
    SimP (max lo start) full (removeOldPauses start act) := by
  rcases removeOldPauses_spec start act with hk | ⟨P, r, Q, e, hk, hr, hrs⟩
  · rw [hk]; exact simP_mono h (by omega)
  · rw [hk]
    obtain ⟨h1, h2⟩ := h
    refine ⟨h1, .inr ?_⟩
    rcases h2 with hh | ⟨P0, r0, Q0, g1, g2, g3, g4, g5⟩
    · refine ⟨P, r, Q, by rw [← hh, e], ?_, List.Sublist.refl _, hr, by omega⟩
      rw [← hh, e]; exact List.sublist_append_right _ _
    · have hso0 := h1
      rw [g1] at hso0 g2
      obtain ⟨P', eP⟩ := sub_form hso0 g2 g3
      rw [eP] at e
      rcases List.append_eq_append_iff.1 e with ⟨c, e1, e2⟩ | ⟨c, e1, e2⟩
      · refine ⟨P0 ++ c, r, Q, by rw [g1, e2]; simp, ?_, List.Sublist.refl _, hr, by omega⟩
        rw [g1, e2]
        exact (List.sublist_append_right _ _).trans (List.sublist_append_right _ _)
      · refine ⟨P0, r0, Q0, g1, ?_, ?_, g4, by omega⟩
        · rw [g1]
          refine List.Sublist.trans ?_ g2
          rw [eP, e]; exact List.sublist_append_right _ _
        · rw [e2]; exact List.sublist_append_right _ _

theorem simP_count {lo start n : Nat} {full act : List Toggle} (h : SimP lo full act) (hn : n < 2 ^ 63)
    (hs : n = 0 ∨ (lo ≤ start ∧ start < n)) :
    pausesInCurrentSong (n : Int) start act = pausesInCurrentSong (n : Int) start full := by
  by_cases hn0 : n = 0
  · subst hn0
    rw [show ((0 : Nat) : Int) = 0 from rfl, pauses_at_zero, pauses_at_zero]
  · obtain ⟨hso, h2⟩ := h
    rcases h2 with rfl | ⟨P, r, Q, e, h1, h2, h3, h4⟩
    · rfl
    · rw [e] at h1 hso
      obtain ⟨P', rfl⟩ := sub_form hso h1 h2
      rcases hs with hs | ⟨hs1, hs2⟩
      · exact absurd hs hn0
      · have hr2 : r.toggleIndex < n := by omega
        rw [e, drop_before_resume n _ hn P Q r (chrono_of_lt hso) h3 (by omega) hr2,
          drop_before_resume n _ hn P' Q r (List.Pairwise.sublist h1 (chrono_of_lt hso)) h3 (by omega) hr2]

theorem removeOldChunks_sublist (rate : Nat) (now : Int) (cs : List Chunk) : (removeOldChunks rate now cs).Sublist cs := by
  induction cs with
  | nil => simp [removeOldChunks]
  | cons c cs ih =>
    simp only [removeOldChunks]
    split
    · exact List.Sublist.refl _
    · exact ih.trans (List.sublist_cons_self _ _)

theorem removeOldChunks_gone (rate : Nat) (now : Int) (cs : List Chunk) :
    ∀ c ∈ cs, c ∉ removeOldChunks rate now cs → c.endTime rate < now := by
  induction cs with
  | nil => simp
  | cons d cs ih =>
    intro c hc hn
    simp only [removeOldChunks] at hn
    split at hn
    · exact absurd hc hn
    · rcases List.mem_cons.1 hc with rfl | hc
      · omega
      · exact ih c hc hn

theorem simC_cut {rate : Nat} {t now : Int} {full act : List Chunk} (h : SimC rate t full act) (ht : t ≤ now) :
    SimC rate now full (removeOldChunks rate now act) := by
  obtain ⟨h1, h2, h3⟩ := h
  refine ⟨(removeOldChunks_sublist rate now act).trans h1, ?_, h3⟩
  intro c hc hn
  by_cases hca : c ∈ act
  · exact removeOldChunks_gone rate now act c hca hn
  · have := h2 c hc hca; omega

/-- The head of a chunk list is the first that has not ended, if the leading ended ones have just been removed and no
ended one was added. -/
theorem head_not_ended {rate : Nat} {now : Int} {cs ms cs' : List Chunk}
    (h : Inserts Chunk.startIndex (removeOldChunks rate now cs) ms cs') (hm : ∀ c ∈ ms, now ≤ c.endTime rate)
    (hs : (removeOldChunks rate now cs).Pairwise (fun a b => a.startIndex < b.startIndex))
    (hd : Dist Chunk.startIndex (removeOldChunks rate now cs ++ ms)) :
    cs'.head? = cs'.find? (fun c => decide (now ≤ c.endTime rate)) := by
  have h0 : ∀ c, (removeOldChunks rate now cs).head? = some c → now ≤ c.endTime rate := by
    intro c hc
    clear h hs hd
    induction cs with
    | nil => simp [removeOldChunks] at hc
    | cons d cs ih =>
      simp only [removeOldChunks] at hc
      split at hc
      · simp at hc; subst hc; assumption
      · exact ih hc
  suffices hh : ∀ c, cs'.head? = some c → now ≤ c.endTime rate by
    cases cs' with
    | nil => rfl
    | cons c l => simp [List.find?_cons, hh c rfl]
  generalize removeOldChunks rate now cs = l at *
  induction h with
  | nil l => exact h0
  | @cons l m l1 ms l2 h r ih =>
    rw [show l ++ m :: ms = (l ++ [m]) ++ ms by simp] at hd
    have hst := sorted_strict h (List.pairwise_append.1 hd).1
    refine ih (fun c hc => hm c (by simp [hc])) hst ((dist_perm (h.1.append_right ms)).2 hd) ?_
    intro c hc
    cases l1 with
    | nil => simp at hc
    | cons d l1 =>
      simp at hc; subst hc
      have hmem : d ∈ l ++ [m] := h.1.subset (by simp)
      rcases List.mem_append.1 hmem with hmem | hmem
      · cases l with
        | nil => simp at hmem
        | cons e l =>
          rcases List.mem_cons.1 hmem with rfl | hmem'
          · exact h0 _ rfl
          · exfalso
            have h1 := (List.pairwise_cons.1 hs).1 d hmem'
            have he : e ∈ d :: l1 := h.1.symm.subset (by simp)
            rcases List.mem_cons.1 he with rfl | he
            · omega
            · have := (List.pairwise_cons.1 hst).1 e he; omega
      · simp at hmem; subst hmem; exact hm _ (by simp)

/-! ## Sorting messages into before and after -/

def isChunk : Msg σ → Bool
  | .chunk _ => true
  | _ => false
def isPause : Msg σ → Bool
  | .pause _ => true
  | _ => false

theorem songsM_append (a b : List (Msg σ)) : songsM (a ++ b) = songsM a ++ songsM b := List.filterMap_append
theorem chunksM_append (a b : List (Msg σ)) : chunksM (a ++ b) = chunksM a ++ chunksM b := List.filterMap_append
theorem pausesM_append (a b : List (Msg σ)) : pausesM (a ++ b) = pausesM a ++ pausesM b := List.filterMap_append

theorem filters (ms : List (Msg σ)) :
    songsM (ms.filter isChunk) = [] ∧ chunksM (ms.filter isChunk) = chunksM ms ∧ pausesM (ms.filter isChunk) = [] ∧
    songsM (ms.filter (fun m => !isChunk m)) = songsM ms ∧ chunksM (ms.filter (fun m => !isChunk m)) = [] ∧
    pausesM (ms.filter (fun m => !isChunk m)) = pausesM ms ∧
    songsM (ms.filter isPause) = [] ∧ chunksM (ms.filter isPause) = [] ∧ pausesM (ms.filter isPause) = pausesM ms ∧
    songsM (ms.filter (fun m => !isPause m)) = songsM ms ∧ chunksM (ms.filter (fun m => !isPause m)) = chunksM ms ∧
    pausesM (ms.filter (fun m => !isPause m)) = [] := by
  induction ms with
  | nil => simp [songsM, chunksM, pausesM]
  | cons m ms ih =>
    obtain ⟨a1, a2, a3, a4, a5, a6, a7, a8, a9, a10, a11, a12⟩ := ih
    cases m with
    | song m =>
      have e1 : isChunk (Msg.song m) = false := rfl
      have e2 : isPause (Msg.song m) = false := rfl
      have k1 : ∀ l, songsM (Msg.song m :: l) = m :: songsM l := fun _ => rfl
      have k2 : ∀ l, chunksM (Msg.song m :: l) = chunksM l := fun _ => rfl
      have k3 : ∀ l, pausesM (Msg.song m :: l) = pausesM l := fun _ => rfl
      simp [List.filter_cons, e1, e2, k1, k2, k3, a1, a2, a3, a4, a5, a6, a7, a8, a9, a10, a11, a12]
    | chunk m =>
      have e1 : isChunk (Msg.chunk (σ := σ) m) = true := rfl
      have e2 : isPause (Msg.chunk (σ := σ) m) = false := rfl
      have k1 : ∀ l, songsM (Msg.chunk (σ := σ) m :: l) = songsM l := fun _ => rfl
      have k2 : ∀ l, chunksM (Msg.chunk (σ := σ) m :: l) = m :: chunksM l := fun _ => rfl
      have k3 : ∀ l, pausesM (Msg.chunk (σ := σ) m :: l) = pausesM l := fun _ => rfl
      simp [List.filter_cons, e1, e2, k1, k2, k3, a1, a2, a3, a4, a5, a6, a7, a8, a9, a10, a11, a12]
    | pause m =>
      have e1 : isChunk (Msg.pause (σ := σ) m) = false := rfl
      have e2 : isPause (Msg.pause (σ := σ) m) = true := rfl
      have k1 : ∀ l, songsM (Msg.pause (σ := σ) m :: l) = songsM l := fun _ => rfl
      have k2 : ∀ l, chunksM (Msg.pause (σ := σ) m :: l) = chunksM l := fun _ => rfl
      have k3 : ∀ l, pausesM (Msg.pause (σ := σ) m :: l) = m :: pausesM l := fun _ => rfl
      simp [List.filter_cons, e1, e2, k1, k2, k3, a1, a2, a3, a4, a5, a6, a7, a8, a9, a10, a11, a12]

theorem perm_filters (m0 m1 m2 m3 : List (Msg σ)) :
    ((m0 ++ m1.filter (fun m => !isChunk m) ++ (m2 ++ m3).filter isPause) ++
      (m1.filter isChunk ++ (m2 ++ m3).filter (fun m => !isPause m))).Perm (m0 ++ m1 ++ m2 ++ m3) := by
  have h1 := List.filter_append_perm isChunk m1
  have h2 := List.filter_append_perm isPause (m2 ++ m3)
  simp only [List.append_assoc]
  refine List.Perm.append_left m0 ?_
  have h2' : (List.filter isPause (m2 ++ m3) ++ (List.filter (fun m => !isPause m) (m2 ++ m3))).Perm (m2 ++ m3) := h2
  have h1' : (List.filter isChunk m1 ++ (List.filter (fun m => !isChunk m) m1)).Perm m1 := h1
  generalize List.filter (fun m => !isChunk m) m1 = A at *
  generalize List.filter isPause (m2 ++ m3) = B at *
  generalize List.filter isChunk m1 = C at *
  generalize List.filter (fun m => !isPause m) (m2 ++ m3) = D at *
  have e1 : (A ++ (B ++ (C ++ D))).Perm (C ++ A ++ (B ++ D)) := by
    have x1 : (B ++ (C ++ D)).Perm (C ++ (B ++ D)) := by
      rw [← List.append_assoc, ← List.append_assoc]
      exact List.perm_append_comm.append_right D
    refine (x1.append_left A).trans ?_
    rw [← List.append_assoc]
    exact List.perm_append_comm.append_right _
  exact e1.trans (h1'.append h2')

/-! ## The theorem -/

theorem songs_inserts {S act ms act' : List (Song σ)} (h : act = S) (ha : Inserts Song.startIndex act ms act') :
    Inserts Song.startIndex S ms act' := h ▸ ha

theorem sampleAt_head {rate : Nat} {now : Int} {cs : List Chunk} :
    sampleAt rate now cs = match cs.head? with
      | some c => (c.startIndex : Int) + ((now - c.startTime) * rate).tdiv second
      | none => 0 := by
  cases cs <;> rfl

theorem dist_left {α : Type} {key : α → Nat} {a b : List α} (h : Dist key (a ++ b)) : Dist key a :=
  (List.pairwise_append.1 h).1

theorem run_core (rate : Nat) (evs : List (Event σ)) :
    ∀ (t : Int) (lo : Nat) (last : Int) (S : List (Song σ)) (C : List Chunk) (P : List Toggle) (act act' : State σ)
      (outs : List (PlaybackInfo σ)),
      act.songs = S → S.Pairwise (fun a b => a.startIndex < b.startIndex) → SimC rate t C act.chunks →
      SimP lo P act.pauses →
      (lo = 0 ∨ ∃ x ∈ S, x.startIndex = lo ∧ (lo : Int) < last) →
      Dist Song.startIndex (S ++ songsM (received evs)) → Dist Chunk.startIndex (C ++ chunksM (received evs)) →
      Dist Toggle.toggleIndex (P ++ pausesM (received evs)) →
      (t :: readings evs).Pairwise (· ≤ ·) → NoLateChunk rate evs → Exec rate act evs outs act' →
      (∀ o ∈ outs, 0 ≤ o.sample ∧ o.sample < 2 ^ 63) →
      (last :: (outs.map (·.sample)).filter (· ≠ 0)).Pairwise (· ≤ ·) →
      ∃ h full, OneAtATime evs h ∧ KeepRun rate ⟨S, C, P⟩ h outs full := by
  induction evs with
  | nil =>
    intro t lo last S C P act act' outs _ _ _ _ _ _ _ _ _ _ hx _ _
    cases hx
    exact ⟨[], _, .nil, .nil _⟩
  | cons ev evs ih =>
    intro t lo last S C P act act' outs hS hss hC hP hlo hds hdc hdp hq hl hx hb hfw
    cases ev with
    | msg m =>
      cases hx with | msg hm hx =>
      rename_i s1
      obtain ⟨i1, i2, i3⟩ := arrive_inserts (Arrive.cons hm (.nil _))
      have er : received (Event.msg m :: evs) = [m] ++ received evs := rfl
      rw [er, songsM_append, ← List.append_assoc] at hds
      rw [er, chunksM_append, ← List.append_assoc] at hdc
      rw [er, pausesM_append, ← List.append_assoc] at hdp
      have i1 := songs_inserts hS i1
      obtain ⟨C1, c1⟩ := exists_inserts Chunk.startIndex (chunksM [m]) C
      obtain ⟨P1, p1⟩ := exists_inserts Toggle.toggleIndex (pausesM [m]) P
      obtain ⟨h, full, ho, hk⟩ := ih t lo last s1.songs C1 P1 s1 act' outs rfl (inserts_strict i1 hss (dist_left hds))
        (simC_inserts hC (dist_left hdc) c1 i2) (simP_inserts hP (dist_left hdp) p1 i3)
        (by
          rcases hlo with h | ⟨x, hx, h1, h2⟩
          · exact .inl h
          · exact .inr ⟨x, (inserts_perm i1).symm.subset (by simp [hx]), h1, h2⟩)
        ((dist_perm ((inserts_perm i1).append_right _)).2 hds)
        ((dist_perm ((inserts_perm c1).append_right _)).2 hdc)
        ((dist_perm ((inserts_perm p1).append_right _)).2 hdp)
        hq (fun now m0 m1 m2 m3 hm => hl now m0 m1 m2 m3 (by simp [hm])) hx hb hfw
      exact ⟨toEv m :: h, full, .msg ho, keep_msgs [m] i1 c1 p1 hk⟩
    | info now m0 m1 m2 m3 =>
      cases hx with | info h0 h1 h2 h3 hx =>
      rename_i s1 s2 s3 s4 outs
      obtain ⟨a1, a2, a3⟩ := arrive_inserts h0
      obtain ⟨b1, b2, b3⟩ := arrive_inserts h1
      obtain ⟨c1, c2, c3⟩ := arrive_inserts h2
      obtain ⟨d1, d2, d3⟩ := arrive_inserts h3
      simp only [cutChunks] at a1 a2 a3
      simp only [cutPauses] at d1 d2 d3
      have er : received (Event.info now m0 m1 m2 m3 :: evs) = (m0 ++ m1 ++ m2 ++ m3) ++ received evs := rfl
      rw [er, songsM_append, ← List.append_assoc] at hds
      rw [er, chunksM_append, ← List.append_assoc] at hdc
      rw [er, pausesM_append, ← List.append_assoc] at hdp
      have hq1 := (List.pairwise_cons.1 hq).1 now (by simp [readings])
      have hq2 := (List.pairwise_cons.1 hq).2
      rw [readings] at hq2
      -- songs
      rw [hS] at a1
      have sAB : Inserts Song.startIndex S (songsM m0 ++ songsM m1) s2.songs := inserts_append.2 ⟨_, a1, b1⟩
      have sCD : Inserts Song.startIndex s2.songs (songsM m2 ++ songsM m3) s4.songs := inserts_append.2 ⟨_, c1, d1⟩
      have sAll : Inserts Song.startIndex S (songsM (m0 ++ m1 ++ m2 ++ m3)) s4.songs := by
        rw [songsM_append, songsM_append, songsM_append, List.append_assoc]
        exact inserts_append.2 ⟨_, sAB, sCD⟩
      -- chunks
      obtain ⟨C1, f1⟩ := exists_inserts Chunk.startIndex (chunksM m0) C
      obtain ⟨C4, f4⟩ := exists_inserts Chunk.startIndex (chunksM (m1 ++ m2 ++ m3)) C1
      have fAll : Inserts Chunk.startIndex C (chunksM (m0 ++ m1 ++ m2 ++ m3)) C4 := by
        rw [List.append_assoc, List.append_assoc, chunksM_append, ← List.append_assoc m1]
        exact inserts_append.2 ⟨_, f1, f4⟩
      have hdcA := dist_left hdc
      have hdc0 : Dist Chunk.startIndex (C ++ chunksM m0) := by
        rw [chunksM_append, chunksM_append, chunksM_append, ← List.append_assoc, ← List.append_assoc, ← List.append_assoc] at hdcA
        exact dist_left (dist_left (dist_left hdcA))
      have hC0 := simC_cut hC hq1
      have hC1 : SimC rate now C1 s1.chunks := simC_inserts hC0 hdc0 f1 a2
      have hC4 : SimC rate now C4 s4.chunks := by
        refine simC_inserts hC1 ?_ f4 (act' := s4.chunks) ?_
        · refine (dist_perm ((inserts_perm f1).append_right _)).2 ?_
          rw [List.append_assoc, ← chunksM_append, ← List.append_assoc, ← List.append_assoc]
          exact hdcA
        · rw [chunksM_append, chunksM_append]
          exact inserts_append.2 ⟨_, inserts_append.2 ⟨_, b2, c2⟩, d2⟩
      -- pauses
      obtain ⟨P3, g3⟩ := exists_inserts Toggle.toggleIndex (pausesM (m0 ++ m1 ++ m2)) P
      obtain ⟨P4, g4⟩ := exists_inserts Toggle.toggleIndex (pausesM m3) P3
      have gAll : Inserts Toggle.toggleIndex P (pausesM (m0 ++ m1 ++ m2 ++ m3)) P4 := by
        rw [pausesM_append]
        exact inserts_append.2 ⟨_, g3, g4⟩
      have hdpA := dist_left hdp
      have hdp3 : Dist Toggle.toggleIndex (P ++ pausesM (m0 ++ m1 ++ m2)) := by
        rw [pausesM_append, ← List.append_assoc] at hdpA
        exact dist_left hdpA
      have hP3 : SimP lo P3 s3.pauses := by
        refine simP_inserts hP hdp3 g3 ?_
        rw [pausesM_append, pausesM_append]
        exact inserts_append.2 ⟨_, inserts_append.2 ⟨_, a3, b3⟩, c3⟩
      -- the position
      have hpos : idealSample rate now C1 = sampleAt rate now s1.chunks := by
        have e1 : s1.chunks.find? (fun c => decide (now ≤ c.endTime rate)) =
            C1.find? (fun c => decide (now ≤ c.endTime rate)) := by
          refine find_sublist hC1.1 ?_ (nodup_of_lt hC1.2.2)
          intro c hc hn
          have := hC1.2.1 c hc hn
          simp; omega
        have e2 := head_not_ended a2 (hl now m0 m1 m2 m3 (by simp)) (hC0.2.2.sublist hC0.1)
          (hdc0.sublist (List.Sublist.append_right hC0.1 _))
        rw [sampleAt_head, e2, e1, idealSample]
        rfl
      have hrs : (result rate (sampleAt rate now s1.chunks) (currentSong (sampleAt rate now s1.chunks) s2.songs)
          (pausesInCurrentSong (sampleAt rate now s1.chunks)
            (songStart (currentSong (sampleAt rate now s1.chunks) s2.songs)) s4.pauses)).sample =
          sampleAt rate now s1.chunks := by
        simp only [result]; split <;> rfl
      have hb0 := hb _ (List.mem_cons_self ..)
      rw [hrs] at hb0
      rw [List.map_cons, List.filter_cons, hrs] at hfw
      generalize hsv : sampleAt rate now s1.chunks = sample at *
      have hss2 : s2.songs.Pairwise (fun a b => a.startIndex < b.startIndex) := by
        refine inserts_strict sAB hss ?_
        have := dist_left hds
        rw [songsM_append, songsM_append, songsM_append, List.append_assoc, ← List.append_assoc S] at this
        exact dist_left this
      have hsong : sample = 0 ∨ lo ≤ songStart (currentSong sample s2.songs) := by
        by_cases h0 : sample = 0
        · exact .inl h0
        · right
          simp only [h0, ne_eq, not_false_eq_true, decide_true, if_true] at hfw
          have hle := (List.pairwise_cons.1 hfw).1 sample (by simp)
          rcases hlo with h | ⟨x, hx, h1, h2⟩
          · omega
          · rw [← h1]
            exact start_le_current hss2 ((inserts_perm sAB).symm.subset (by simp [hx])) (by omega)
      obtain ⟨n, hn⟩ := Int.eq_ofNat_of_zero_le hb0.1
      have hn63 : n < 2 ^ 63 := by omega
      have hstart : n ≠ 0 → songStart (currentSong sample s2.songs) < n := by
        intro hn0
        cases hc : currentSong sample s2.songs with
        | none => simp [songStart]; omega
        | some x =>
          simp only [songStart]
          have := List.find?_some hc
          simp at this; omega
      have hP4 : SimP (max lo (songStart (currentSong sample s2.songs))) P4 s4.pauses := by
        refine simP_inserts (simP_cut hP3) ?_ g4 d3
        refine (dist_perm ((inserts_perm g3).append_right _)).2 ?_
        rw [List.append_assoc, ← pausesM_append]
        exact hdpA
      have hcount : pausesInCurrentSong sample (songStart (currentSong sample s2.songs)) s4.pauses =
          pausesInCurrentSong sample (songStart (currentSong sample s2.songs)) P4 := by
        rw [hn]
        rw [hn] at hP4 hsong hstart
        refine simP_count hP4 hn63 ?_
        by_cases hn0 : n = 0
        · exact .inl hn0
        · right
          have := hstart hn0
          rcases hsong with hz | hz
          · omega
          · exact ⟨by omega, this⟩
      have hout : result rate sample (currentSong sample s2.songs)
          (pausesInCurrentSong sample (songStart (currentSong sample s2.songs)) s4.pauses) =
          ideal rate now ⟨s2.songs, C1, P4⟩ := by
        rw [hcount]
        simp only [ideal, hpos, idealAt, result]
      have hnewlo : max lo (songStart (currentSong sample s2.songs)) = 0 ∨ ∃ x ∈ s4.songs,
          x.startIndex = max lo (songStart (currentSong sample s2.songs)) ∧
          ((max lo (songStart (currentSong sample s2.songs)) : Nat) : Int) < (if sample = 0 then last else sample) := by
        by_cases h0 : sample = 0
        · have hz : songStart (currentSong sample s2.songs) = 0 := by
            cases hc : currentSong sample s2.songs with
            | none => rfl
            | some y =>
              have := List.find?_some hc
              simp at this
              omega
          rw [hz, if_pos h0, Nat.max_zero]
          rcases hlo with h | ⟨x, hx, h1, h2⟩
          · exact .inl h
          · exact .inr ⟨x, (inserts_perm sAll).symm.subset (by simp [hx]), h1, h2⟩
        · rw [if_neg h0]
          have hlos : lo ≤ songStart (currentSong sample s2.songs) := by
            rcases hsong with h | h
            · exact absurd h h0
            · exact h
          rw [Nat.max_eq_right hlos]
          cases hc : currentSong sample s2.songs with
          | none => exact .inl rfl
          | some y =>
            right
            have h1 := List.find?_some hc
            have h2 := List.mem_of_find?_eq_some hc
            exact ⟨y, (inserts_perm sCD).symm.subset (List.mem_append_left _ (by simpa using h2)), rfl,
              by simpa [songStart] using h1⟩
      obtain ⟨h, full, ho, hk⟩ := ih now _ (if sample = 0 then last else sample) s4.songs C4 P4 s4 act' outs rfl
        (inserts_strict sAll hss (dist_left hds)) hC4 hP4 hnewlo
        ((dist_perm ((inserts_perm sAll).append_right _)).2 hds)
        ((dist_perm ((inserts_perm fAll).append_right _)).2 hdc)
        ((dist_perm ((inserts_perm gAll).append_right _)).2 hdp)
        hq2 (fun now m0 m1 m2 m3 hm => hl now m0 m1 m2 m3 (by simp [hm])) hx
        (fun o ho => hb o (List.mem_cons_of_mem _ ho))
        (by
          by_cases h0 : sample = 0
          · rw [if_pos h0]
            simpa [h0] using hfw
          · rw [if_neg h0]
            simp only [h0, ne_eq, not_false_eq_true, decide_true, if_true] at hfw
            exact (List.pairwise_cons.1 hfw).2)
      obtain ⟨_, _, _, q4, q5, q6, _, _, _, _, _, _⟩ := filters m1
      obtain ⟨r1, r2, r3, _⟩ := filters m1
      obtain ⟨_, _, _, _, _, _, t7, t8, t9, t10, t11, t12⟩ := filters (m2 ++ m3)
      refine ⟨_, full, .info (perm_filters m0 m1 m2 m3) ho, ?_⟩
      rw [hout]
      refine keep_msgs _ (S' := s2.songs) (C' := C1) (P' := P4) ?_ ?_ ?_ (.query (keep_msgs _ ?_ ?_ ?_ hk))
      · simpa only [songsM_append _ (List.filter _ _), songsM_append m0, q4, t7, List.append_nil] using sAB
      · simpa only [chunksM_append _ (List.filter _ _), chunksM_append m0, q5, t8, List.append_nil] using f1
      · rw [pausesM_append, pausesM_append, q6, t9, ← pausesM_append, ← pausesM_append, ← List.append_assoc]
        exact gAll
      · rw [songsM_append, r1, t10, songsM_append]
        exact sCD
      · rw [chunksM_append, r2, t11, ← chunksM_append, ← List.append_assoc]
        exact f4
      · rw [pausesM_append, r3, t12]
        exact .nil _

/-- C100. Whatever messages are handled while a display is computed, and in whichever of its steps: everything displayed
is what an infoer that keeps everything would display if it handled one thing after the other, with the messages that
came while a display was computed put before or after that display. Assumed: no message about a chunk that has already
ended comes exactly between the removal of old chunks and the reading of the position (`C100_late_chunk` shows that this
is needed); indices are distinct per kind; neither the clock nor the positions shown run backwards. -/
theorem C100_consistent_partial (rate : Nat) (evs : List (Event σ)) (s : State σ) (outs : List (PlaybackInfo σ))
    (hx : Exec rate ⟨[], [], []⟩ evs outs s) (hl : NoLateChunk rate evs)
    (hds : (songsM (received evs)).Pairwise (fun a b => a.startIndex ≠ b.startIndex))
    (hdc : (chunksM (received evs)).Pairwise (fun a b => a.startIndex ≠ b.startIndex))
    (hdp : (pausesM (received evs)).Pairwise (fun a b => a.toggleIndex ≠ b.toggleIndex))
    (hq : (readings evs).Pairwise (· ≤ ·))
    (hb : ∀ o ∈ outs, 0 ≤ o.sample ∧ o.sample < 2 ^ 63)
    (hfw : ((outs.map (·.sample)).filter (· ≠ 0)).Pairwise (· ≤ ·)) :
    ∃ h full, OneAtATime evs h ∧ KeepRun rate ⟨[], [], []⟩ h outs full := by
  have hmin : ∃ t0 : Int, ∀ t ∈ readings evs, t0 ≤ t := by
    generalize readings evs = l
    induction l with
    | nil => exact ⟨0, by simp⟩
    | cons a l ih =>
      obtain ⟨t0, h⟩ := ih
      refine ⟨min a t0, fun t ht => ?_⟩
      rcases List.mem_cons.1 ht with rfl | ht
      · omega
      · have := h t ht; omega
  obtain ⟨t0, ht0⟩ := hmin
  refine run_core rate evs t0 0 0 [] [] [] ⟨[], [], []⟩ s outs rfl .nil ⟨List.Sublist.refl _, by simp, .nil⟩
    ⟨.nil, .inl rfl⟩ (.inl rfl) (by simpa [Dist] using hds) (by simpa [Dist] using hdc) (by simpa [Dist] using hdp)
    (List.pairwise_cons.2 ⟨ht0, hq⟩) hl hx hb (List.pairwise_cons.2 ⟨?_, hfw⟩)
  intro x hx
  obtain ⟨hx, _⟩ := List.mem_filter.1 hx
  obtain ⟨o, ho, rfl⟩ := List.mem_map.1 hx
  exact (hb o ho).1

theorem arrive_one {s s' : State σ} {m : Msg σ} (h : Handle s m s') : Arrive s [m] s' := .cons h (.nil _)

/-- Non-vacuity of C100: while the display at 0.15 s is computed a chunk comes before the position is read, the song
shown comes before the songs are looked through, another song after that, and a pause and a chunk between the removal and
the counting of the toggles; the pause is counted, the later song and chunk are not. -/
example : ∃ (s : State Unit) (o1 o2 : PlaybackInfo Unit),
    Exec 1000 ⟨[], [], []⟩ [.msg (.song ⟨(), 10, 90⟩), .msg (.pause ⟨false, 20⟩), .msg (.pause ⟨true, 30⟩),
      .info 150000000 [.chunk ⟨0, 0, 200⟩] [.song ⟨(), 100, 900⟩] [.song ⟨(), 120, 900⟩]
        [.pause ⟨false, 140⟩, .chunk ⟨200000000, 200, 200⟩],
      .info 260000000 [] [] [] []] [o1, o2] s ∧
    o1.sample = 150 ∧ o1.song = some ⟨(), 100, 900⟩ ∧ o1.playing = false ∧ o1.pausesInSong = 10 ∧
    s.pauses = [⟨true, 30⟩, ⟨false, 140⟩] ∧ o2.sample = 260 ∧ o2.song = some ⟨(), 120, 900⟩ := by
  refine ⟨_, _, _, .msg (s1 := ⟨[⟨(), 10, 90⟩], [], []⟩) (.song ⟨⟨.refl _, by simp⟩, rfl, rfl⟩) <|
    .msg (s1 := ⟨[⟨(), 10, 90⟩], [], [⟨false, 20⟩]⟩) (.pause ⟨⟨.refl _, by simp⟩, rfl, rfl⟩) <|
    .msg (s1 := ⟨[⟨(), 10, 90⟩], [], [⟨false, 20⟩, ⟨true, 30⟩]⟩) (.pause ⟨⟨.refl _, by simp⟩, rfl, rfl⟩) <|
    .info (s1 := ⟨[⟨(), 10, 90⟩], [⟨0, 0, 200⟩], [⟨false, 20⟩, ⟨true, 30⟩]⟩)
      (s2 := ⟨[⟨(), 10, 90⟩, ⟨(), 100, 900⟩], [⟨0, 0, 200⟩], [⟨false, 20⟩, ⟨true, 30⟩]⟩)
      (s3 := ⟨[⟨(), 10, 90⟩, ⟨(), 100, 900⟩, ⟨(), 120, 900⟩], [⟨0, 0, 200⟩], [⟨false, 20⟩, ⟨true, 30⟩]⟩)
      (s4 := ⟨[⟨(), 10, 90⟩, ⟨(), 100, 900⟩, ⟨(), 120, 900⟩], [⟨0, 0, 200⟩, ⟨200000000, 200, 200⟩],
        [⟨true, 30⟩, ⟨false, 140⟩]⟩)
      (arrive_one (.chunk ⟨⟨.refl _, by simp⟩, rfl, rfl⟩))
      (arrive_one (.song ⟨⟨.refl _, by simp⟩, rfl, rfl⟩))
      (arrive_one (.song ⟨⟨.refl _, by simp⟩, rfl, rfl⟩))
      (.cons (s1 := ⟨[⟨(), 10, 90⟩, ⟨(), 100, 900⟩, ⟨(), 120, 900⟩], [⟨0, 0, 200⟩], [⟨true, 30⟩, ⟨false, 140⟩]⟩)
        (.pause ⟨⟨.refl _, by simp⟩, rfl, rfl⟩) (arrive_one (.chunk ⟨⟨.refl _, by simp⟩, rfl, rfl⟩))) <|
    .info (.nil _) (.nil _) (.nil _) (.nil _) (.nil _), ?_⟩
  decide

/-- C100 is false without the assumption about late chunks: if the message about a chunk that has already ended is
handled exactly between the removal of old chunks and the reading of the position, a position far behind the end of the
chunk is displayed. An infoer handling one thing at a time, in whatever order, displays position 0 (nothing known). -/
theorem C100_late_chunk (now : Int) (h1 : 3000000000 < now) :
    ∃ (s : State Unit) (o : PlaybackInfo Unit),
      Exec 1000 ⟨[], [], []⟩ [.info now [.chunk ⟨1000000000, 5000, 200⟩] [] [] []] [o] s ∧ 7000 ≤ o.sample ∧
      ∀ h o' full, OneAtATime [.info now [.chunk ⟨1000000000, 5000, 200⟩] [] [] []] h →
        KeepRun 1000 (⟨[], [], []⟩ : State Unit) h [o'] full → o'.sample = 0 := by
  refine ⟨_, _, .info (s1 := ⟨[], [⟨1000000000, 5000, 200⟩], []⟩)
    (arrive_one (.chunk ⟨⟨.refl _, by simp⟩, rfl, rfl⟩)) (.nil _) (.nil _) (.nil _) (.nil _), ?_, ?_⟩
  · have : sampleAt 1000 now [⟨1000000000, 5000, 200⟩] ≥ 7000 := by
      simp only [sampleAt, second]
      rw [Int.tdiv_eq_ediv_of_nonneg (by omega)]
      omega
    simp only [result]
    split <;> exact this
  · intro h o' full ho hk
    cases ho with | info hp r =>
    cases r
    rename_i before after
    have hends : ¬ now ≤ Chunk.endTime 1000 ⟨1000000000, 5000, 200⟩ := by
      have : Chunk.endTime 1000 ⟨1000000000, 5000, 200⟩ = 1200000000 := by decide
      omega
    simp only [List.nil_append, List.append_nil] at hp hk
    have hzero : ∀ (C : List Chunk), (∀ c ∈ C, c = ⟨1000000000, 5000, 200⟩) → ∀ (st : State Unit), st.chunks = C →
        (ideal 1000 now st).sample = 0 := by
      intro C hC st hst
      have hf : C.find? (fun c => decide (now ≤ c.endTime 1000)) = none := by
        rw [List.find?_eq_none]
        intro c hc
        rw [hC c hc]
        simpa using hends
      have : (ideal 1000 now st).sample = idealSample 1000 now st.chunks := by
        simp only [ideal, idealAt]; split <;> rfl
      rw [this, hst, idealSample, hf]
    rcases List.append_eq_singleton_iff.1 (List.perm_singleton.1 hp) with ⟨rfl, rfl⟩ | ⟨rfl, rfl⟩
    · cases hk with | query hk =>
      cases hk with | chunk _ hk =>
      cases hk
      exact hzero [] (by simp) _ rfl
    · cases hk with | chunk hc hk =>
      cases hk with | query hk =>
      cases hk
      refine hzero _ (fun c hc' => ?_) _ rfl
      have := hc.1.1.subset hc'
      simpa using this

end MS.InfoRace
