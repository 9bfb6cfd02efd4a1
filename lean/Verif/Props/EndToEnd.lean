import Verif.Props.StreamLoop
import Verif.Props.StreamOrder
import Verif.Props.Infoer
/-!
# Property C46: the displayed time in the song is the audio streamed

The server's streaming loop (`MS.StreamLoop`) and an infoer (`MS.Infoer`) together.
-/
set_option linter.unusedSimpArgs false
set_option linter.unusedVariables false
namespace MS.EndToEnd
open MS.StreamLoop MS.Infoer MS.Spec

variable {α : Type}

/-! ## Toggles are announced at different indices -/

def PBefore (ps : List (Bool × Nat)) (n : Nat) : Prop := ∀ p ∈ ps, p.2 < n

def TogInv (s : St α) : Prop :=
  s.pauses.Pairwise (fun a b => a.2 < b.2) ∧ (∀ p ∈ s.pauses, p.2 ≤ s.out.length) ∧
  match s.pc with
  | .body _ => True
  | .chk _ n ok => (ok = true ∧ bufSize ≤ n) → PBefore s.pauses s.out.length
  | .incR false => True
  | .incW false _ => True
  | .brk => True
  | _ => PBefore s.pauses s.out.length

theorem pbefore_mono {ps : List (Bool × Nat)} {n m : Nat} (h : PBefore ps n) (hm : n ≤ m) : PBefore ps m :=
  fun e he => Nat.lt_of_lt_of_le (h e he) hm

theorem togInv_loop {c : Cfg α} (hb : 0 < c.brk) {s s' : St α} (hi : TogInv s) (h : loopStep c s = some s') : TogInv s' := by
  obtain ⟨songs, position, tokens, inflight, playing, playingLast, current, pc, out, news, pauses, blocks, cuts⟩ := s
  obtain ⟨hp, hle, hi⟩ := hi
  simp only at hp hle hi
  have hle' : ∀ m, ∀ e ∈ pauses, e.2 ≤ out.length + m := fun m e he => by have := hle e he; omega
  cases pc with
  | top =>
    simp only [loopStep] at h
    split at h
    · injection h with h; subst h
      exact ⟨hp, by simpa using hle' _, by simpa using pbefore_mono hi (Nat.le_add_right _ _)⟩
    · split at h <;> injection h with h <;> subst h <;> exact ⟨hp, hle, hi⟩
  | store pos song =>
    simp only [loopStep] at h
    split at h <;> injection h with h <;> subst h
    · exact ⟨hp, by simpa using hle' _, by simpa using pbefore_mono hi (Nat.le_add_right _ _)⟩
    · exact ⟨hp, hle, hi⟩
  | opening song =>
    simp only [loopStep] at h
    split at h <;> injection h with h <;> subst h <;> exact ⟨hp, hle, hi⟩
  | h1 rem =>
    simp only [loopStep] at h
    split at h <;> injection h with h <;> subst h
    · exact ⟨hp, hle, hi⟩
    · exact ⟨hp, hle, trivial⟩
  | h2 rem => simp only [loopStep] at h; injection h with h; subst h; exact ⟨hp, hle, hi⟩
  | h3 rem =>
    simp only [loopStep] at h; injection h with h; subst h
    refine ⟨?_, ?_, trivial⟩
    · rw [List.pairwise_append]
      refine ⟨hp, List.pairwise_singleton _ _, ?_⟩
      intro a ha b hb
      simp at hb; subst hb
      exact hi a ha
    · intro p hp
      simp at hp
      rcases hp with hp | hp
      · exact hle p hp
      · subst hp; exact Nat.le_refl _
  | body rem =>
    simp only [loopStep] at h
    split at h <;> injection h with h <;> subst h
    · refine ⟨hp, by simpa using hle' _, ?_⟩
      rintro ⟨_, h2⟩ p hpp
      have := hle p hpp
      have h3 : min bufSize rem.length = bufSize := by omega
      have : 0 < bufSize := by decide
      simp [h3]
      omega
    · refine ⟨hp, by simpa using hle' _, ?_⟩
      rintro ⟨_, h2⟩ p hpp
      have := hle p hpp
      have : 0 < bufSize := by decide
      simp
      omega
  | chk rem n ok =>
    simp only [loopStep] at h
    split at h
    · injection h with h; subst h; exact ⟨hp, hle, trivial⟩
    · split at h <;> injection h with h <;> subst h
      · exact ⟨hp, hle, trivial⟩
      · rename_i hn
        refine ⟨hp, hle, hi ⟨?_, by omega⟩⟩
        cases ok
        · exact absurd (Or.inl rfl) hn
        · rfl
  | incR skip =>
    simp only [loopStep] at h; injection h with h; subst h
    cases skip
    · exact ⟨hp, hle, trivial⟩
    · exact ⟨hp, hle, hi⟩
  | incW skip v =>
    simp only [loopStep] at h; injection h with h; subst h
    cases skip
    · exact ⟨hp, hle, trivial⟩
    · exact ⟨hp, hle, hi⟩
  | brk =>
    simp only [loopStep] at h; injection h with h; subst h
    refine ⟨hp, by simpa using hle' _, ?_⟩
    intro p hpp
    have := hle p hpp
    simp
    omega
  | crashed => simp [loopStep] at h

theorem togInv_run {c : Cfg α} (hb : 0 < c.brk) (songs : List String) (acts : List Act) (s : St α)
    (h : run c (init songs) acts = some s) : TogInv s := by
  refine run_induct (ok := fun _ => True) ?_ (by simp) (by simp [TogInv, init, PBefore]) h
  intro s s' a _ hi h
  rcases step_cases h with ⟨_, h⟩ | ⟨p, _, rfl⟩ | ⟨_, _, _, rfl⟩ | ⟨b, _, rfl⟩ | ⟨l, _, rfl⟩
  · exact togInv_loop hb hi h
  all_goals exact hi

/-! ## Between a song's announcement and any of its blocks there are only blocks -/

def Cov (blocks : List (Nat × Nat)) (j : Nat) : Prop := ∃ b ∈ blocks, b.1 ≤ j ∧ j < b.1 + b.2

def BlockInv (s : St α) : Prop :=
  s.news.Pairwise (fun a b => a.1 ≤ b.1) ∧ (∀ e ∈ s.news, e.1 ≤ s.out.length) ∧ (∀ b ∈ s.blocks, b.1 + b.2 ≤ s.out.length) ∧
  (∀ b ∈ s.blocks, ∃ e ∈ s.news, e.1 ≤ b.1 ∧ (∀ j, e.1 ≤ j → j < b.1 + b.2 → Cov s.blocks j) ∧
    ∀ e' ∈ s.news, e'.1 ≤ e.1 ∨ b.1 + b.2 ≤ e'.1) ∧
  (inSong s.pc = true → ∃ e, s.news.getLast? = some e ∧ ∀ j, e.1 ≤ j → j < s.out.length → Cov s.blocks j)

theorem cov_mono {bs : List (Nat × Nat)} {j : Nat} (x : List (Nat × Nat)) (h : Cov bs j) : Cov (bs ++ x) j := by
  obtain ⟨b, hb, h⟩ := h
  exact ⟨b, List.mem_append_left _ hb, h⟩

theorem last_ge {news : List (Nat × String × Nat)} (hp : news.Pairwise (fun a b => a.1 ≤ b.1)) {e}
    (he : news.getLast? = some e) : ∀ e' ∈ news, e'.1 ≤ e.1 := by
  rw [List.getLast?_eq_some_iff] at he
  obtain ⟨x, rfl⟩ := he
  intro e' h'
  rcases List.mem_append.1 h' with h' | h'
  · exact (List.pairwise_append.1 hp).2.2 e' h' e (by simp)
  · simp at h'; simp [h']

/-- pushing samples outside of songs -/
theorem blockInv_push {s : St α} (hi : BlockInv s) (ext : List (Option α)) (pos : Int) (pc : Pc α) (hpc : inSong pc = false) :
    BlockInv { s with position := pos, out := s.out ++ ext, pc := pc } := by
  obtain ⟨h1, h2, h3, h4, h5⟩ := hi
  refine ⟨h1, ?_, ?_, h4, by simp [hpc]⟩
  · intro e he; have := h2 e he; simp; omega
  · intro e he; have := h3 e he; simp; omega

/-- pushing a block -/
theorem blockInv_block {s : St α} (hi : BlockInv s) (hs : inSong s.pc = true) (ext : List (Option α)) (n : Nat) (hn : ext.length = n)
    (pc : Pc α) (hpc : inSong pc = true) :
    BlockInv { s with out := s.out ++ ext, blocks := s.blocks ++ [(s.out.length, n)], pc := pc } := by
  obtain ⟨h1, h2, h3, h4, h5⟩ := hi
  obtain ⟨e, he, hc⟩ := h5 hs
  have hem := List.mem_of_getLast? he
  have hel := h2 e hem
  have cov : ∀ j, e.1 ≤ j → j < s.out.length + n → Cov (s.blocks ++ [(s.out.length, n)]) j := by
    intro j hj hj'
    by_cases hlt : j < s.out.length
    · exact cov_mono _ (hc j hj hlt)
    · exact ⟨(s.out.length, n), by simp, by simp; omega, by simpa using hj'⟩
  refine ⟨h1, ?_, ?_, ?_, ?_⟩
  · intro x hx; have := h2 x hx; simp; omega
  · intro b hb
    simp at hb
    rcases hb with hb | hb
    · have := h3 b hb; simp; omega
    · subst hb; simp [hn]
  · intro b hb
    simp at hb
    rcases hb with hb | hb
    · obtain ⟨x, hx, hxb, hcv, ho⟩ := h4 b hb
      exact ⟨x, hx, hxb, fun j a b => cov_mono _ (hcv j a b), ho⟩
    · subst hb
      exact ⟨e, hem, hel, cov, fun e' he' => Or.inl (last_ge h1 he e' he')⟩
  · intro _
    refine ⟨e, he, ?_⟩
    intro j hj hj'
    simp [hn] at hj'
    exact cov j hj hj'

theorem blockInv_pc {s : St α} (hi : BlockInv s) (pc : Pc α) (hpc : inSong pc = true → inSong s.pc = true) (x y : Bool) (pa : List (Bool × Nat))
    (t : Nat) (cu : String) (ct : List Nat) (pos : Int) :
    BlockInv { s with position := pos, pc := pc, playing := x, playingLast := y, pauses := pa, tokens := t, current := cu, cuts := ct } := by
  obtain ⟨h1, h2, h3, h4, h5⟩ := hi
  exact ⟨h1, h2, h3, h4, fun h => h5 (hpc h)⟩

theorem blockInv_loop {c : Cfg α} {s s' : St α} (hi : BlockInv s) (h : loopStep c s = some s') : BlockInv s' := by
  have hi0 := hi
  obtain ⟨songs, position, tokens, inflight, playing, playingLast, current, pc, out, news, pauses, blocks, cuts⟩ := s
  cases pc with
  | top =>
    simp only [loopStep] at h
    split at h
    · injection h with h; subst h
      exact blockInv_push hi _ _ _ rfl
    · split at h <;> injection h with h <;> subst h <;> exact blockInv_pc hi _ (by simp [inSong]) _ _ _ _ _ _ _
  | store pos song =>
    simp only [loopStep] at h
    split at h <;> injection h with h <;> subst h
    · exact blockInv_push hi _ _ _ rfl
    · exact blockInv_pc hi _ (by simp [inSong]) _ _ _ _ _ _ _
  | opening song =>
    simp only [loopStep] at h
    split at h <;> injection h with h <;> subst h
    · exact blockInv_pc hi _ (by simp [inSong]) _ _ _ _ _ _ _
    · rename_i l _
      obtain ⟨h1, h2, h3, h4, h5⟩ := hi
      simp only at h1 h2 h3 h4 h5
      refine ⟨?_, ?_, h3, ?_, ?_⟩
      · rw [List.pairwise_append]
        refine ⟨h1, List.pairwise_singleton _ _, ?_⟩
        intro a ha b hb
        simp at hb; subst hb
        exact h2 a ha
      · intro e he
        simp at he
        rcases he with he | he
        · exact h2 e he
        · subst he; exact Nat.le_refl _
      · intro b hb
        obtain ⟨x, hx, hxb, hcv, ho⟩ := h4 b hb
        refine ⟨x, List.mem_append_left _ hx, hxb, hcv, ?_⟩
        intro e' he'
        simp at he'
        rcases he' with he' | he'
        · exact ho e' he'
        · subst he'; exact Or.inr (h3 b hb)
      · intro _
        refine ⟨(out.length, song, l.length), by simp, ?_⟩
        intro j a b
        simp at a b
        omega
  | h1 rem =>
    simp only [loopStep] at h
    split at h <;> injection h with h <;> subst h <;> exact blockInv_pc hi _ (by simp [inSong]) _ _ _ _ _ _ _
  | h2 rem => simp only [loopStep] at h; injection h with h; subst h; exact blockInv_pc hi _ (by simp [inSong]) _ _ _ _ _ _ _
  | h3 rem => simp only [loopStep] at h; injection h with h; subst h; exact blockInv_pc hi _ (by simp [inSong]) _ _ _ _ _ _ _
  | body rem =>
    simp only [loopStep] at h
    split at h <;> injection h with h <;> subst h
    · exact blockInv_block hi rfl _ _ (by simp) _ rfl
    · exact blockInv_block hi rfl _ _ (by simp) _ rfl
  | chk rem n ok =>
    simp only [loopStep] at h
    split at h
    · injection h with h; subst h; exact blockInv_pc hi _ (by simp [inSong]) _ _ _ _ _ _ _
    · split at h <;> injection h with h <;> subst h <;> exact blockInv_pc hi _ (by simp [inSong]) _ _ _ _ _ _ _
  | incR skip => simp only [loopStep] at h; injection h with h; subst h; exact blockInv_pc hi _ (by simp [inSong]) _ _ _ _ _ _ _
  | incW skip v =>
    simp only [loopStep] at h; injection h with h; subst h
    exact blockInv_pc hi _ (by cases skip <;> simp [inSong]) _ _ _ _ _ _ _
  | brk => simp only [loopStep] at h; injection h with h; subst h; exact blockInv_push hi _ _ _ rfl
  | crashed => simp [loopStep] at h

theorem blockInv_run {c : Cfg α} (songs : List String) (acts : List Act) (s : St α)
    (h : run c (init songs) acts = some s) : BlockInv s := by
  refine run_induct (ok := fun _ => True) ?_ (by simp) (by simp [BlockInv, init, inSong]) h
  intro s s' a _ hi h
  rcases step_cases h with ⟨_, h⟩ | ⟨p, _, rfl⟩ | ⟨_, _, _, rfl⟩ | ⟨b, _, rfl⟩ | ⟨l, _, rfl⟩
  · exact blockInv_loop hi h
  all_goals exact hi


/-! ## Infoers that drop nothing -/

theorem sample_info {σ : Type} (rate : Nat) (now : Int) (s : State σ) : (info rate now s).1.sample = idealSample rate now s.chunks := by
  have : (info rate now s).1.sample = sampleAt rate now (removeOldChunks rate now s.chunks) := by
    simp only [info]; split <;> rfl
  rw [this, sampleAt_find, idealSample]

theorem sample_ideal {σ : Type} (rate : Nat) (now : Int) (s : State σ) : (ideal rate now s).sample = idealSample rate now s.chunks := by
  simp only [ideal, idealAt]; split <;> rfl

structure CSim {σ : Type} (rate : Nat) (t : Int) (full act : State σ) : Prop where
  sub : act.chunks.Sublist full.chunks
  gone : ∀ c ∈ full.chunks, c ∉ act.chunks → c.endTime rate < t
  sorted : full.chunks.Pairwise (fun a b => a.startIndex < b.startIndex)

theorem csim_query {σ : Type} {rate : Nat} {t now : Int} {full act : State σ} (h : CSim rate t full act) (htn : t ≤ now) :
    idealSample rate now act.chunks = idealSample rate now full.chunks ∧ CSim rate now full (info rate now act).2 := by
  constructor
  · unfold idealSample
    rw [find_sublist h.sub (fun c hc hn => by have := h.gone c hc hn; simp; omega) (nodup_of_lt h.sorted)]
  · refine ⟨?_, ?_, h.sorted⟩
    · simp only [info]
      refine List.Sublist.trans ?_ h.sub
      generalize act.chunks = cs
      induction cs with
      | nil => simp [removeOldChunks]
      | cons c cs ih =>
        simp only [removeOldChunks]
        split
        · exact List.Sublist.refl _
        · exact ih.trans (List.sublist_cons_self _ _)
    · intro c hc hn
      by_cases hca : c ∈ act.chunks
      · simp only [info] at hn
        generalize act.chunks = cs at hca hn
        induction cs with
        | nil => simp at hca
        | cons d cs ih =>
          simp only [removeOldChunks] at hn
          split at hn
          · exact absurd hca hn
          · rename_i hd
            rcases List.mem_cons.1 hca with rfl | hca
            · omega
            · exact ih hca hn
      · have := h.gone c hc hca
        omega

/-- The positions shown never depend on what was dropped. -/
theorem samples_eq {σ : Type} (rate : Nat) (evs : List (Ev σ)) :
    ∀ (t : Int) (full act full' act' : State σ) (outs outs' : List (PlaybackInfo σ)), CSim rate t full act →
      (full.chunks ++ chunksOf evs).Pairwise (fun a b => a.startIndex ≠ b.startIndex) →
      (t :: queriesOf evs).Pairwise (· ≤ ·) →
      Run rate act evs outs act' → KeepRun rate full evs outs' full' → outs.map (·.sample) = outs'.map (·.sample) := by
  induction evs with
  | nil =>
    intro t full act full' act' outs outs' _ _ _ hr hk
    cases hr; cases hk; rfl
  | cons ev evs ih =>
    intro t full act full' act' outs outs' hsim hdc hq hr hk
    cases ev with
    | song m =>
      cases hr with | song hr0 hr =>
      cases hk with | song hk0 hk =>
      obtain ⟨a1, a2, a3⟩ := hr0
      obtain ⟨b1, b2, b3⟩ := hk0
      refine ih t _ _ _ _ _ _ ⟨by rw [a2, b2]; exact hsim.sub, by rw [a2, b2]; exact hsim.gone, by rw [b2]; exact hsim.sorted⟩
        (by rw [b2]; exact hdc) hq hr hk
    | pause m =>
      cases hr with | pause hr0 hr =>
      cases hk with | pause hk0 hk =>
      obtain ⟨a1, a2, a3⟩ := hr0
      obtain ⟨b1, b2, b3⟩ := hk0
      refine ih t _ _ _ _ _ _ ⟨by rw [a3, b3]; exact hsim.sub, by rw [a3, b3]; exact hsim.gone, by rw [b3]; exact hsim.sorted⟩
        (by rw [b3]; exact hdc) hq hr hk
    | chunk m =>
      cases hr with | chunk hr0 hr =>
      cases hk with | chunk hk0 hk =>
      obtain ⟨a1, a2, a3⟩ := hr0
      obtain ⟨b1, b2, b3⟩ := hk0
      have e : chunksOf (Ev.chunk (σ := σ) m :: evs) = m :: chunksOf evs := rfl
      rw [e, ← List.singleton_append, ← List.append_assoc] at hdc
      have hdc' := (List.pairwise_append.1 hdc).1
      have hstr2 := sorted_strict b1 hdc'
      have hstr1 := sorted_strict a1 (hdc'.sublist (List.Sublist.append_right hsim.sub _))
      refine ih t _ _ _ _ _ _ ⟨?_, ?_, hstr2⟩ ?_ hq hr hk
      · refine strict_sublist hstr1 hstr2 (fun x hx => ?_)
        rw [a1.1.mem_iff, List.mem_append] at hx
        rw [b1.1.mem_iff, List.mem_append]
        exact hx.imp (fun h => hsim.sub.subset h) id
      · intro c hc hn
        rw [b1.1.mem_iff, List.mem_append] at hc
        rw [a1.1.mem_iff, List.mem_append] at hn
        rcases hc with hc | hc
        · exact hsim.gone c hc (fun h => hn (.inl h))
        · exact absurd (.inr hc) hn
      · exact ((b1.1.append_right _).pairwise_iff (fun h => Ne.symm h)).2 hdc
    | query now =>
      cases hr with | query hr =>
      cases hk with | query hk =>
      have e : queriesOf (Ev.query (σ := σ) now :: evs) = now :: queriesOf evs := rfl
      rw [e] at hq
      obtain ⟨q1, q2⟩ := csim_query hsim ((List.pairwise_cons.1 hq).1 now (by simp))
      rw [List.map_cons, List.map_cons, sample_info, sample_ideal, q1]
      congr 1
      exact ih now _ _ _ _ _ _ q2 hdc (List.pairwise_cons.1 hq).2 hr hk

/-- Every history can be had by an infoer that drops nothing. -/
theorem keepRun_exists {σ : Type} (rate : Nat) (evs : List (Ev σ)) (s : State σ) : ∃ outs s', KeepRun rate s evs outs s' := by
  have sort : ∀ {β : Type} (key : β → Nat) (l : List β), ∃ l', SortedBy key l l' := by
    intro β key l
    refine ⟨l.mergeSort (fun a b => decide (key a ≤ key b)), List.mergeSort_perm _ _, ?_⟩
    have := List.pairwise_mergeSort (le := fun a b => decide (key a ≤ key b)) (by simp; omega) (by simp; omega) l
    exact this.imp (by simp)
  induction evs generalizing s with
  | nil => exact ⟨_, _, .nil s⟩
  | cons ev evs ih =>
    cases ev with
    | song m =>
      obtain ⟨l', h⟩ := sort Song.startIndex (s.songs ++ [m])
      obtain ⟨o, s', r⟩ := ih { s with songs := l' }
      exact ⟨o, s', .song (s1 := { s with songs := l' }) ⟨h, rfl, rfl⟩ r⟩
    | chunk m =>
      obtain ⟨l', h⟩ := sort Chunk.startIndex (s.chunks ++ [m])
      obtain ⟨o, s', r⟩ := ih { s with chunks := l' }
      exact ⟨o, s', .chunk (s1 := { s with chunks := l' }) ⟨h, rfl, rfl⟩ r⟩
    | pause m =>
      obtain ⟨l', h⟩ := sort Toggle.toggleIndex (s.pauses ++ [m])
      obtain ⟨o, s', r⟩ := ih { s with pauses := l' }
      exact ⟨o, s', .pause (s1 := { s with pauses := l' }) ⟨h, rfl, rfl⟩ r⟩
    | query now =>
      obtain ⟨o, s', r⟩ := ih s
      exact ⟨_, s', .query r⟩

/-- What an infoer that drops nothing has at the end of a history. -/
theorem keepRun_state {σ : Type} {rate : Nat} {evs : List (Ev σ)} {s s' : State σ} {outs : List (PlaybackInfo σ)}
    (h : KeepRun rate s evs outs s') :
    s'.songs.Perm (s.songs ++ songsOf evs) ∧ s'.chunks.Perm (s.chunks ++ chunksOf evs) ∧ s'.pauses.Perm (s.pauses ++ pausesOf evs) ∧
    (s.songs.Pairwise (fun a b => a.startIndex ≤ b.startIndex) → s'.songs.Pairwise (fun a b => a.startIndex ≤ b.startIndex)) ∧
    (s.chunks.Pairwise (fun a b => a.startIndex ≤ b.startIndex) → s'.chunks.Pairwise (fun a b => a.startIndex ≤ b.startIndex)) ∧
    (Chrono s.pauses → Chrono s'.pauses) := by
  induction h with
  | nil s => simp [songsOf, chunksOf, pausesOf]
  | @song s m s1 evs outs s2 h _ ih =>
    obtain ⟨a1, a2, a3⟩ := h
    obtain ⟨i1, i2, i3, i4, i5, i6⟩ := ih
    have e : songsOf (Ev.song m :: evs) = m :: songsOf evs := rfl
    refine ⟨?_, ?_, ?_, fun _ => i4 a1.2, ?_, ?_⟩
    · rw [e]; exact i1.trans ((a1.1.append_right _).trans (by simp))
    · rw [← a2]; exact i2
    · rw [← a3]; exact i3
    · rw [← a2]; exact i5
    · rw [← a3]; exact i6
  | @chunk s m s1 evs outs s2 h _ ih =>
    obtain ⟨a1, a2, a3⟩ := h
    obtain ⟨i1, i2, i3, i4, i5, i6⟩ := ih
    have e : chunksOf (Ev.chunk (σ := σ) m :: evs) = m :: chunksOf evs := rfl
    refine ⟨?_, ?_, ?_, ?_, fun _ => i5 a1.2, ?_⟩
    · rw [← a2]; exact i1
    · rw [e]; exact i2.trans ((a1.1.append_right _).trans (by simp))
    · rw [← a3]; exact i3
    · rw [← a2]; exact i4
    · rw [← a3]; exact i6
  | @pause s m s1 evs outs s2 h _ ih =>
    obtain ⟨a1, a2, a3⟩ := h
    obtain ⟨i1, i2, i3, i4, i5, i6⟩ := ih
    have e : pausesOf (Ev.pause (σ := σ) m :: evs) = m :: pausesOf evs := rfl
    refine ⟨?_, ?_, ?_, ?_, ?_, fun _ => i6 a1.2⟩
    · rw [← a2]; exact i1
    · rw [← a3]; exact i2
    · rw [e]; exact i3.trans ((a1.1.append_right _).trans (by simp))
    · rw [← a2]; exact i4
    · rw [← a3]; exact i5
  | query _ ih => exact ih

theorem keepRun_append {σ : Type} {rate : Nat} {evs : List (Ev σ)} : ∀ {more : List (Ev σ)} {s s' : State σ} {outs : List (PlaybackInfo σ)}
    (_ : KeepRun rate s (evs ++ more) outs s'), ∃ o1 o2 s1, outs = o1 ++ o2 ∧ KeepRun rate s evs o1 s1 ∧ KeepRun rate s1 more o2 s' := by
  induction evs with
  | nil => intro more s s' outs h; exact ⟨[], outs, s, rfl, .nil s, h⟩
  | cons ev evs ih =>
    intro more s s' outs h
    cases ev with
    | song m => cases h with | song h0 h => obtain ⟨o1, o2, s1, e, k1, k2⟩ := ih h; exact ⟨o1, o2, s1, e, .song h0 k1, k2⟩
    | chunk m => cases h with | chunk h0 h => obtain ⟨o1, o2, s1, e, k1, k2⟩ := ih h; exact ⟨o1, o2, s1, e, .chunk h0 k1, k2⟩
    | pause m => cases h with | pause h0 h => obtain ⟨o1, o2, s1, e, k1, k2⟩ := ih h; exact ⟨o1, o2, s1, e, .pause h0 k1, k2⟩
    | query now =>
      cases h with | query h =>
      obtain ⟨o1, o2, s1, e, k1, k2⟩ := ih h
      exact ⟨_ :: o1, o2, s1, by rw [e]; rfl, .query k1, k2⟩

/-- C44 for the positions the infoer itself shows: the last display of a history. -/
theorem last_display {σ : Type} (rate : Nat) (evs : List (Ev σ)) (now : Int) (st : State σ) (outs : List (PlaybackInfo σ)) (o : PlaybackInfo σ)
    (hds : (songsOf evs).Pairwise (fun a b => a.startIndex ≠ b.startIndex))
    (hdc : (chunksOf evs).Pairwise (fun a b => a.startIndex ≠ b.startIndex))
    (hdp : (pausesOf evs).Pairwise (fun a b => a.toggleIndex ≠ b.toggleIndex))
    (hq : (queriesOf evs ++ [now]).Pairwise (· ≤ ·))
    (hr : Run rate ⟨[], [], []⟩ (evs ++ [.query now]) (outs ++ [o]) st)
    (hb : ∀ x ∈ outs ++ [o], 0 ≤ x.sample ∧ x.sample < 2 ^ 63)
    (hfw : (((outs ++ [o]).map (·.sample)).filter (· ≠ 0)).Pairwise (· ≤ ·)) :
    ∃ full : State σ, full.songs.Perm (songsOf evs) ∧ full.songs.Pairwise (fun a b => a.startIndex < b.startIndex) ∧
      full.pauses.Perm (pausesOf evs) ∧ full.pauses.Pairwise (fun a b => a.toggleIndex < b.toggleIndex) ∧
      o = ideal rate now full ∧ (info rate now full).1 = ideal rate now full := by
  have qs : ∀ (l : List (Ev σ)), songsOf (l ++ [.query now]) = songsOf l ∧ chunksOf (l ++ [.query now]) = chunksOf l ∧
      pausesOf (l ++ [.query now]) = pausesOf l ∧ queriesOf (l ++ [.query now]) = queriesOf l ++ [now] := by
    intro l; simp [songsOf, chunksOf, pausesOf, queriesOf]
  obtain ⟨e1, e2, e3, e4⟩ := qs evs
  obtain ⟨outs', full', hk⟩ := keepRun_exists rate (evs ++ [.query now]) (⟨[], [], []⟩ : State σ)
  have hmin : ∃ t0 : Int, ∀ t ∈ queriesOf (evs ++ [.query now]), t0 ≤ t := by
    generalize queriesOf (evs ++ [.query now]) = l
    induction l with
    | nil => exact ⟨0, by simp⟩
    | cons a l ih =>
      obtain ⟨t0, h⟩ := ih
      refine ⟨min a t0, fun t ht => ?_⟩
      rcases List.mem_cons.1 ht with rfl | ht
      · omega
      · have := h t ht; omega
  obtain ⟨t0, ht0⟩ := hmin
  have hse := samples_eq rate (evs ++ [.query now]) t0 ⟨[], [], []⟩ ⟨[], [], []⟩ full' st (outs ++ [o]) outs'
    ⟨List.Sublist.refl _, by simp, List.Pairwise.nil⟩ (by simpa [e2] using hdc)
    (List.pairwise_cons.2 ⟨ht0, by rw [e4]; exact hq⟩) hr hk
  have hb' : ∀ x ∈ outs', 0 ≤ x.sample ∧ x.sample < 2 ^ 63 := by
    intro x hx
    have : x.sample ∈ (outs ++ [o]).map (·.sample) := by rw [hse]; exact List.mem_map.2 ⟨x, hx, rfl⟩
    obtain ⟨y, hy, e⟩ := List.mem_map.1 this
    rw [← e]; exact hb y hy
  have heq := C44_pruning_invisible_partial rate (evs ++ [.query now]) st full' (outs ++ [o]) outs' (by rw [e1]; exact hds)
    (by rw [e2]; exact hdc) (by rw [e3]; exact hdp) (by rw [e4]; exact hq) hr hk hb' (by rw [← hse]; exact hfw)
  subst heq
  obtain ⟨o1, o2, s1, e, k1, k2⟩ := keepRun_append hk
  cases k2 with | query k2 =>
  cases k2
  obtain ⟨-, e⟩ := List.append_inj' e rfl
  simp only [List.cons.injEq, and_true] at e
  obtain ⟨i1, i2, i3, i4, i5, i6⟩ := keepRun_state k1
  simp only [List.nil_append] at i1 i2 i3
  have ss := sorted_strict (key := Song.startIndex) ⟨i1, i4 List.Pairwise.nil⟩ hds
  have sc := sorted_strict (key := Chunk.startIndex) ⟨i2, i5 List.Pairwise.nil⟩ hdc
  have sp := sorted_strict (key := Toggle.toggleIndex) ⟨i3, i6 List.Pairwise.nil⟩ hdp
  refine ⟨full', i1, ss, i3, sp, e, ?_⟩
  have hsmp : idealSample rate now full'.chunks = o.sample := by rw [e, sample_ideal]
  have hbo := hb o (by simp)
  exact (C44_query rate now now 0 full' full' ⟨rfl, List.Sublist.refl _, fun c h1 h2 => absurd h1 h2, sc, sp, .inl rfl⟩
    (by omega) o.sample hsmp.symm hbo.1 hbo.2 _ rfl (Or.inr (Nat.zero_le _))).1


/-! ## C46 -/

theorem eq_of_key {β : Type} {key : β → Nat} {l : List β} (h : l.Pairwise (fun a b => key a < key b)) {x y : β} (hx : x ∈ l) (hy : y ∈ l)
    (e : key x = key y) : x = y := by
  obtain ⟨i, hi, rfl⟩ := List.mem_iff_getElem.1 hx
  obtain ⟨j, hj, rfl⟩ := List.mem_iff_getElem.1 hy
  have hp := List.pairwise_iff_getElem.1 h
  by_cases hij : i = j
  · subst hij; rfl
  · exfalso
    rcases Nat.lt_or_gt_of_ne hij with hh | hh
    · have := hp i j hi hj hh; omega
    · have := hp j i hj hi hh; omega

/-- Specification: what the announcements of a song (index, name, length), described by `d`, and of a toggle (playing, index) say to an infoer
(C54, C55). -/
def asSong {σ : Type} (d : Nat × String × Nat → σ) (e : Nat × String × Nat) : Song σ := ⟨d e, e.1, e.2.2⟩
def asToggle (p : Bool × Nat) : Toggle := ⟨p.1, p.2⟩

/-- Specification: the audio between two indices of a stream. -/
def audioBetween (out : List (Option α)) (a b : Nat) : List α := audio ((out.take b).drop a)

theorem audio_count (out : List (Option α)) (p : Nat → Bool) : ∀ (m a : Nat), a + m ≤ out.length →
    (∀ j, a ≤ j → j < a + m → ((∃ x, out[j]? = some (some x)) ↔ p j = true)) →
    (audioBetween out a (a + m)).length = (List.range' a m).countP p := by
  intro m
  induction m with
  | zero => intro a h _; simp [audioBetween, audio]
  | succ m ih =>
    intro a hle hp
    have e : audioBetween out a (a + (m + 1)) = audioBetween out a (a + 1) ++ audioBetween out (a + 1) (a + 1 + m) := by
      unfold audioBetween
      rw [← audio_append]
      congr 1
      rw [show a + (m + 1) = a + 1 + m by omega]
      have h1 : (out.take (a + 1 + m)).drop a = ((out.take (a + 1 + m)).drop a).take 1 ++ ((out.take (a + 1 + m)).drop a).drop 1 :=
        (List.take_append_drop _ _).symm
      rw [h1, List.drop_drop]
      congr 1
      rw [List.drop_take, List.drop_take, List.take_take]
      congr 1
      omega
    rw [e, List.length_append, List.range'_succ, List.countP_cons, Nat.add_comm]
    rw [ih (a + 1) (by omega) (fun j h1 h2 => hp j (by omega) (by omega))]
    congr 1
    have hlt : a < out.length := by omega
    have h1 : (out.take (a + 1)).drop a = [out[a]] := by
      rw [List.drop_take, show a + 1 - a = 1 by omega, List.drop_eq_getElem_cons hlt]
      rfl
    have hpa := hp a (Nat.le_refl _) (by omega)
    rw [List.getElem?_eq_getElem hlt] at hpa
    unfold audioBetween
    rw [h1]
    cases hx : out[a] with
    | none =>
      rw [hx] at hpa
      have : p a = false := by
        cases hpp : p a with
        | false => rfl
        | true => obtain ⟨x, hx⟩ := hpa.2 hpp; simp at hx
      simp [audio, this]
    | some x =>
      rw [hx] at hpa
      have : p a = true := hpa.1 ⟨x, rfl⟩
      simp [audio, this]

/-- Later toggles, and the order of arrival, do not matter before `n`. -/
theorem playingAt_arrived {ps : List (Bool × Nat)} (hps : ps.Pairwise (fun a b => a.2 < b.2)) {ts : List Toggle}
    (hts : ts.Pairwise (fun a b => a.toggleIndex < b.toggleIndex)) {n : Nat} (h1 : ∀ t ∈ ts, t ∈ ps.map asToggle)
    (h2 : ∀ p ∈ ps, p.2 < n → asToggle p ∈ ts) (k : Nat) (hk : k < n) : Infoer.playingAt ts k = Spec.playingAt ps k := by
  have e : ts.filter (fun t => decide (t.toggleIndex ≤ k)) = (ps.filter (fun p => decide (p.2 ≤ k))).map asToggle := by
    refine strict_eq (key := Toggle.toggleIndex) (hts.sublist List.filter_sublist) ?_ ?_
    · rw [List.pairwise_map]
      exact (hps.sublist List.filter_sublist).imp (fun h => h)
    · intro t
      rw [List.mem_filter, List.mem_map]
      constructor
      · rintro ⟨ht, hk'⟩
        obtain ⟨p, hp, rfl⟩ := List.mem_map.1 (h1 t ht)
        exact ⟨p, List.mem_filter.2 ⟨hp, hk'⟩, rfl⟩
      · rintro ⟨p, hp, rfl⟩
        obtain ⟨hp, hk'⟩ := List.mem_filter.1 hp
        have : p.2 ≤ k := by simpa using hk'
        exact ⟨h2 p hp (by omega), hk'⟩
  unfold Infoer.playingAt Spec.playingAt
  rw [e, List.getLast?_map]
  cases (ps.filter (fun p => decide (p.2 ≤ k))).getLast? <;> rfl

/-- C46. The server streams, in any way in which no pause or resume falls between the reads of the play state for one block
(see C10); an infoer receives announcements of the server, in any order, among them all of those for indices below `n`, and
is asked for its display at any times, the last time showing position `n` inside a block of a song. Then it shows that song,
and its time in the song is the playing time of the part of the song's audio that is in the stream between the song's start
and `n`. The play state shown tells whether the sample before `n` is audio. Assumed: song breaks are not empty, clock and
shown positions do not run backwards, chunks have different indices, the song does not start at index 0 (C60). -/
theorem C46_displayed_time_partial (c : Cfg α) (hb : 0 < c.brk) (songs : List String) (acts : List Act) (s : St α)
    (hquiet : Quiet c (init songs) acts) (h : run c (init songs) acts = some s)
    {σ : Type} (d : Nat × String × Nat → σ) (rate : Nat) (evs : List (Ev σ)) (now : Int) (st : State σ) (outs : List (PlaybackInfo σ)) (o : PlaybackInfo σ)
    (hr : Run rate ⟨[], [], []⟩ (evs ++ [.query now]) (outs ++ [o]) st)
    (hs1 : ∀ x ∈ songsOf evs, x ∈ s.news.map (asSong d)) (hs2 : (songsOf evs).Nodup)
    (hp1 : ∀ x ∈ pausesOf evs, x ∈ s.pauses.map asToggle) (hp2 : (pausesOf evs).Nodup)
    (hdc : (chunksOf evs).Pairwise (fun a b => a.startIndex ≠ b.startIndex))
    (hq : (queriesOf evs ++ [now]).Pairwise (· ≤ ·))
    (hbd : ∀ x ∈ outs ++ [o], 0 ≤ x.sample ∧ x.sample < 2 ^ 63)
    (hfw : (((outs ++ [o]).map (·.sample)).filter (· ≠ 0)).Pairwise (· ≤ ·))
    (n : Nat) (hn : o.sample = n) (b : Nat × Nat) (hbm : b ∈ s.blocks) (hb1 : b.1 < n) (hb2 : n ≤ b.1 + b.2)
    (hs3 : ∀ e ∈ s.news, e.1 < n → asSong d e ∈ songsOf evs) (hp3 : ∀ p ∈ s.pauses, p.2 < n → asToggle p ∈ pausesOf evs) :
    ∃ e ∈ s.news, e.1 ≤ b.1 ∧ (∀ e' ∈ s.news, e'.1 ≤ e.1 ∨ b.1 + b.2 ≤ e'.1) ∧ o.song = some (asSong d e) ∧
      (∃ l, c.dec e.2.1 = some l ∧ audioBetween s.out e.1 n <+: l ∧
        (e.1 ≠ 0 →
          o.timeInSong = ((audioBetween s.out e.1 n).length * second) / rate ∧
          o.songLength = (l.length * second) / rate ∧
          o.progress = if 0 < l.length then some (((audioBetween s.out e.1 n).length : Int), (l.length : Int)) else none)) ∧
      (o.playing = true ↔ ∃ a, s.out[n - 1]? = some (some a)) := by
  have tog := togInv_run hb songs acts s h
  obtain ⟨nw1, nw2⟩ := C09_announcements_increasing c (Or.inl hb) songs acts s h
  obtain ⟨-, -, bl, blk, -⟩ := blockInv_run songs acts s h
  obtain ⟨-, -, -, px⟩ := C10_pauses_exact_partial c songs acts s hquiet h
  have ds : (songsOf evs).Pairwise (fun a b => a.startIndex ≠ b.startIndex) := by
    refine hs2.imp_of_mem ?_
    intro x y hx hy hxy e
    obtain ⟨p, hp, rfl⟩ := List.mem_map.1 (hs1 x hx)
    obtain ⟨q, hq, rfl⟩ := List.mem_map.1 (hs1 y hy)
    apply hxy
    rw [eq_of_key nw1 hp hq e]
  have dp : (pausesOf evs).Pairwise (fun a b => a.toggleIndex ≠ b.toggleIndex) := by
    refine hp2.imp_of_mem ?_
    intro x y hx hy hxy e
    obtain ⟨p, hp, rfl⟩ := List.mem_map.1 (hp1 x hx)
    obtain ⟨q, hq, rfl⟩ := List.mem_map.1 (hp1 y hy)
    apply hxy
    rw [eq_of_key tog.1 hp hq e]
  obtain ⟨full, f1, f2, f3, f4, ho, hi⟩ := last_display rate evs now st outs o ds hdc dp hq hr hbd hfw
  obtain ⟨e, hem, heb, hcov, hother⟩ := blk b hbm
  have hn63 : n < 2 ^ 63 := by have := (hbd o (by simp)).2; rw [hn] at this; omega
  have hbo := bl b hbm
  have hsmp : (info rate now full).1.sample = n := by rw [hi, ← ho, hn]
  have hif : (info rate now full).1 = o := by rw [hi, ho]
  -- the song
  have hsong : o.song = some (asSong d e) := by
    have hcur : (ideal rate now full).song = currentSong (idealSample rate now full.chunks) full.songs := by
      simp only [ideal, idealAt]; split <;> rfl
    have hsn : idealSample rate now full.chunks = n := by rw [← sample_ideal (σ := σ) rate now full, ← ho, hn]
    rw [ho, hcur, hsn]
    have hle : full.songs.Pairwise (fun a b => a.startIndex ≤ b.startIndex) := f2.imp (fun h => Nat.le_of_lt h)
    have hefull : asSong d e ∈ full.songs := f1.symm.subset (hs3 e hem (by omega))
    cases hc : currentSong (n : Int) full.songs with
    | none =>
      simp only [currentSong, List.find?_eq_none, List.mem_reverse] at hc
      have := hc _ hefull
      simp [asSong] at this; omega
    | some x =>
      obtain ⟨x1, x2, x3⟩ := find_reverse_sorted (n : Int) full.songs hle x hc
      obtain ⟨e', he', rfl⟩ := List.mem_map.1 (hs1 x (f1.subset x1))
      have hxe := x3 _ hefull (by simp [asSong]; omega)
      have hx2 : e'.1 < n := by simp [asSong] at x2; exact x2
      have hxe : e.1 ≤ e'.1 := hxe
      have : e'.1 = e.1 := by
        rcases hother e' he' with h | h <;> omega
      rw [eq_of_key nw1 he' hem this]
  have hchrono : Chrono full.pauses := chrono_of_lt f4
  have hplay : ∀ k, k < n → Infoer.playingAt full.pauses k = Spec.playingAt s.pauses k := fun k hk =>
    playingAt_arrived tog.1 f4 (n := n) (fun t ht => hp1 t (f3.subset ht)) (fun p hp hpn => f3.symm.subset (hp3 p hp hpn)) k hk
  have hexact : ∀ j, e.1 ≤ j → j < n → ((∃ a, s.out[j]? = some (some a)) ↔ Infoer.playingAt full.pauses j = true) := by
    intro j hj hjn
    rw [hplay j hjn]
    obtain ⟨b', hb', h1, h2⟩ := hcov j hj (by omega)
    exact px b' hb' j h1 h2
  refine ⟨e, hem, heb, hother, hsong, ?_, ?_⟩
  · obtain ⟨i, hi'⟩ := List.getElem?_of_mem hem
    obtain ⟨l, hl, hlen, hpre⟩ := C08_each_song_complete c songs acts s h i e.1 e.2.1 e.2.2 hi'
    refine ⟨l, hl, ?_, ?_⟩
    · obtain ⟨a1, a2, -⟩ := hpre _ rfl
      have hn' : n ≤ ((s.news[i + 1]?).map (·.1)).getD s.out.length := by
        cases hnx : s.news[i + 1]? with
        | none => simp; omega
        | some e' =>
          simp only [Option.map_some, Option.getD_some]
          have hlt : e.1 < e'.1 := by
            obtain ⟨hi1, hi2⟩ := List.getElem?_eq_some_iff.1 hi'
            obtain ⟨hi3, hi4⟩ := List.getElem?_eq_some_iff.1 hnx
            have := List.pairwise_iff_getElem.1 nw1 i (i + 1) hi1 hi3 (by omega)
            rw [hi2, hi4] at this
            exact this
          rcases hother e' (List.mem_of_getElem? hnx) with h | h <;> omega
      refine List.IsPrefix.trans ?_ a2
      unfold audioBetween
      generalize ((s.news[i + 1]?).map (·.1)).getD s.out.length = k' at hn'
      have e1 : (s.out.take k').drop e.1 = (s.out.take n).drop e.1 ++ ((s.out.take k').drop n) := by
        have : s.out.take k' = s.out.take n ++ (s.out.take k').drop n := by
          conv => lhs; rw [← List.take_append_drop n (s.out.take k')]
          rw [List.take_take, Nat.min_eq_left hn']
        conv => lhs; rw [this]
        rw [List.drop_append_of_le_length (by simp; omega)]
      rw [e1, audio_append]
      exact List.prefix_append _ _
    · intro h0
      obtain ⟨t1, t2, t3⟩ := C60_time_in_song_partial rate now full n hn63 hsmp hchrono (asSong d e) (by rw [hif]; exact hsong) h0
      rw [hif] at t1 t2 t3
      have hcount : (audioBetween s.out e.1 n).length = (List.range' e.1 (n - e.1)).countP (fun k => Infoer.playingAt full.pauses k) := by
        have := audio_count s.out (fun k => Infoer.playingAt full.pauses k) (n - e.1) e.1 (by omega)
          (fun j h1 h2 => hexact j h1 (by omega))
        rwa [show e.1 + (n - e.1) = n by omega] at this
      simp only [asSong] at t1 t2 t3
      rw [hcount]
      refine ⟨t1, ?_, ?_⟩
      · rw [t2, hlen, Int.tdiv_eq_ediv_of_nonneg]
        exact Int.mul_nonneg (by omega) (by decide)
      · rw [t3]
        simp only [hlen]
        by_cases hl0 : 0 < l.length
        · rw [if_pos hl0, if_pos (by omega)]
        · rw [if_neg hl0, if_neg (by omega)]
  · have hpl : o.playing = Infoer.playingAt full.pauses (n - 1) := by
      have hst : songStart (some (asSong d e)) ≤ n := by simp [songStart, asSong]; omega
      have h43 := C43_chrono full.pauses hchrono (songStart (some (asSong d e))) n hst hn63
      have hpi : (ideal rate now full).playing =
          (pausesInCurrentSong (idealSample rate now full.chunks) (songStart (ideal rate now full).song) full.pauses).2 := by
        simp only [ideal, idealAt]; split <;> rfl
      rw [← ho, hsong] at hpi
      have hsn : idealSample rate now full.chunks = n := by rw [← sample_ideal (σ := σ) rate now full, ← ho, hn]
      rw [hpi, hsn, h43]
      simp only [lastState, Infoer.playingAt]
      congr 3
      apply List.filter_congr
      intro t _
      simp
      omega
    rw [hpl]
    exact (hexact (n - 1) (by omega) (by omega)).symm

/-- Two songs of three samples each, with breaks of one sample. -/
def twoSongs : List Act := .setPlaying true :: List.replicate 18 .loop

/-- What an infoer receives while `twoSongs` is streamed: both announcements in the wrong order, and a chunk. -/
def twoSongsEvs : List (Ev String) := [.song ⟨"b", 4, 3⟩, .song ⟨"a", 0, 3⟩, .chunk ⟨0, 0, 100⟩]

theorem twoSongs_run (now : Int) : ∃ st, Run 1000 ⟨[], [], []⟩ (twoSongsEvs ++ [.query now])
    [(info 1000 now ⟨[⟨"a", 0, 3⟩, ⟨"b", 4, 3⟩], [⟨0, 0, 100⟩], []⟩).1] st :=
  ⟨_, .song (s1 := ⟨[⟨"b", 4, 3⟩], [], []⟩) ⟨⟨.refl _, by simp⟩, rfl, rfl⟩ <|
    .song (s1 := ⟨[⟨"a", 0, 3⟩, ⟨"b", 4, 3⟩], [], []⟩) ⟨⟨List.Perm.swap _ _ _, by simp⟩, rfl, rfl⟩ <|
    .chunk (s1 := ⟨[⟨"a", 0, 3⟩, ⟨"b", 4, 3⟩], [⟨0, 0, 100⟩], []⟩) ⟨⟨.refl _, by simp⟩, rfl, rfl⟩ <|
    .query <| .nil _⟩

/-- Non-vacuity of C46: position 6 is inside the second song, which started at 4; two samples of it were streamed. -/
example : ∃ (s : St Unit) (st : State String) (o : PlaybackInfo String),
    Quiet tinyCfg (init ["a", "b"]) twoSongs ∧ run tinyCfg (init ["a", "b"]) twoSongs = some s ∧
    Run 1000 ⟨[], [], []⟩ (twoSongsEvs ++ [.query 6000000]) ([] ++ [o]) st ∧
    (∀ x ∈ songsOf twoSongsEvs, x ∈ s.news.map (asSong fun e => e.2.1)) ∧ (songsOf twoSongsEvs).Nodup ∧ pausesOf twoSongsEvs = [] ∧
    s.pauses = [] ∧ o.sample = (6 : Nat) ∧ (4, 3) ∈ s.blocks ∧ (∀ e ∈ s.news, e.1 < 6 → asSong (fun e => e.2.1) e ∈ songsOf twoSongsEvs) ∧
    o.song = some ⟨"b", 4, 3⟩ ∧ o.timeInSong = 2000000 ∧ o.songLength = 3000000 := by
  obtain ⟨st, hr⟩ := twoSongs_run 6000000
  refine ⟨_, st, _, ?_, rfl, hr, ?_⟩
  · unfold twoSongs
    repeat' first
      | exact trivial
      | (refine ⟨rfl, ?_⟩; intro s1 h; injection h with h; subst h)
  · decide

/-- C46 is false in a break: once the song has ended its time goes on, beyond its length (the server does not announce
the end of a song). -/
theorem C46_break_counted : ∃ (s : St Unit) (st : State String) (o : PlaybackInfo String),
    Quiet tinyCfg (init ["a", "b"]) twoSongs ∧ run tinyCfg (init ["a", "b"]) twoSongs = some s ∧
    Run 1000 ⟨[], [], []⟩ (twoSongsEvs ++ [.query 8000000]) [o] st ∧
    s.news.map (asSong fun e => e.2.1) = [⟨"a", 0, 3⟩, ⟨"b", 4, 3⟩] ∧ s.out.length = 8 ∧ o.sample = 8 ∧
    (audioBetween s.out 4 8).length = 3 ∧ o.song = some ⟨"b", 4, 3⟩ ∧ o.timeInSong = 4000000 ∧ o.songLength = 3000000 ∧
    o.progress = some (4, 3) := by
  obtain ⟨st, hr⟩ := twoSongs_run 8000000
  refine ⟨_, st, _, ?_, rfl, hr, ?_⟩
  · unfold twoSongs
    repeat' first
      | exact trivial
      | (refine ⟨rfl, ?_⟩; intro s1 h; injection h with h; subst h)
  · decide

end MS.EndToEnd
