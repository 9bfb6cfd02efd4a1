import Verif.Model.StreamLoop
import Verif.Spec.Stream
/-! Helper lemmas for the stream loop. -/
namespace MS.StreamLoop
open MS.Spec

variable {α : Type}

theorem step_cases {c : Cfg α} {s s' : St α} {a : Act} (h : step c s a = some s') :
    (a = .loop ∧ loopStep c s = some s') ∨
    (∃ p, a = .jumpWrite p ∧ s' = { s with position := p, inflight := s.inflight + 1 }) ∨
    (a = .jumpToken ∧ 0 < s.inflight ∧ s.tokens < 2 ∧
      s' = { s with inflight := s.inflight - 1, tokens := s.tokens + 1 }) ∨
    (∃ b, a = .setPlaying b ∧ s' = { s with playing := b }) ∨
    (∃ l, a = .edit l ∧ s' = { s with songs := l }) := by
  unfold step at h
  split at h
  · simp at h
  · cases a with
    | loop => exact Or.inl ⟨rfl, h⟩
    | jumpWrite p => simp at h; exact Or.inr (Or.inl ⟨p, rfl, h.symm⟩)
    | jumpToken =>
      simp only at h
      split at h
      · rename_i hc
        simp at h
        exact Or.inr (Or.inr (Or.inl ⟨rfl, hc.1, hc.2, h.symm⟩))
      · simp at h
    | setPlaying b => simp at h; exact Or.inr (Or.inr (Or.inr (Or.inl ⟨b, rfl, h.symm⟩)))
    | edit l => simp at h; exact Or.inr (Or.inr (Or.inr (Or.inr ⟨l, rfl, h.symm⟩)))

theorem run_induct {c : Cfg α} {P : St α → Prop} {ok : Act → Prop}
    (hstep : ∀ s s' a, ok a → P s → step c s a = some s' → P s')
    {s s' : St α} {acts : List Act} (hok : ∀ a ∈ acts, ok a) (hp : P s) (h : run c s acts = some s') : P s' := by
  induction acts generalizing s with
  | nil => simp [run] at h; subst h; exact hp
  | cons a as ih =>
    simp only [run] at h
    split at h
    · rename_i s1 h1
      exact ih (fun x hx => hok x (List.mem_cons_of_mem _ hx)) (hstep _ _ _ (hok a List.mem_cons_self) hp h1) h
    · simp at h

theorem run_append (c : Cfg α) (s : St α) (as bs : List Act) :
    run c s (as ++ bs) = (run c s as).bind (fun s' => run c s' bs) := by
  induction as generalizing s with
  | nil => rfl
  | cons a as ih =>
    simp only [List.cons_append, run]
    cases step c s a with
    | none => rfl
    | some s1 => exact ih s1

/-! ### audio -/

theorem audio_append (l m : List (Option α)) : audio (l ++ m) = audio l ++ audio m := by
  simp [audio]

theorem audio_replicate_none (n : Nat) : audio (List.replicate n (none : Option α)) = [] := by
  induction n with
  | zero => rfl
  | succ n ih => simp [List.replicate_succ, audio]

theorem audio_map_some (l : List α) : audio (l.map some) = l := by
  induction l with
  | nil => rfl
  | cons a l ih => simp [audio]

theorem drop_append_le (l m : List (Option α)) (k : Nat) (h : k ≤ l.length) :
    (l ++ m).drop k = l.drop k ++ m := by
  rw [List.drop_append_of_le_length h]

theorem take_append_le (l m : List (Option α)) (k : Nat) (h : k ≤ l.length) :
    (l ++ m).take k = l.take k := by
  rw [List.take_append_of_le_length h]

/-- Appending NaNs keeps the decomposition. -/
theorem explained_nan {songOf : String → Option (List α)} {cuts : List Nat} {e : Bool}
    {news : List (Nat × String × Nat)} {out : List (Option α)} (n : Nat)
    (h : Explained songOf cuts e news out) : Explained songOf cuts e news (out ++ List.replicate n none) := by
  cases news with
  | nil => simpa [Explained, audio_append, audio_replicate_none] using h
  | cons p older =>
    obtain ⟨k, name, len⟩ := p
    obtain ⟨h1, h2, l, h3, h4, h5, h6⟩ := h
    refine ⟨by simp; omega, by rw [take_append_le _ _ _ h1]; exact h2, l, h3, h4, ?_, ?_⟩ <;>
      rw [drop_append_le _ _ _ h1, audio_append, audio_replicate_none, List.append_nil]
    · exact h5
    · exact h6

/-- What the current song's position means: `rem` is what is left of the newest announced song. -/
def Current (songOf : String → Option (List α)) (news : List (Nat × String × Nat)) (out : List (Option α))
    (rem : List α) : Prop :=
  ∃ k name len l, news.getLast? = some (k, name, len) ∧ songOf name = some l ∧ audio (out.drop k) ++ rem = l

/-- Main invariant about the emitted samples. -/
def OutInv (c : Cfg α) (s : St α) : Prop :=
  (∀ n ∈ s.cuts, n ≤ s.news.length) ∧
  match s.pc with
  | .h1 rem => Explained c.dec s.cuts false s.news.reverse s.out ∧ Current c.dec s.news s.out rem ∧ s.news.length ∉ s.cuts
  | .h2 rem => Explained c.dec s.cuts false s.news.reverse s.out ∧ Current c.dec s.news s.out rem ∧ s.news.length ∉ s.cuts
  | .h3 rem => Explained c.dec s.cuts false s.news.reverse s.out ∧ Current c.dec s.news s.out rem ∧ s.news.length ∉ s.cuts
  | .body rem => Explained c.dec s.cuts false s.news.reverse s.out ∧ Current c.dec s.news s.out rem ∧ s.news.length ∉ s.cuts
  | .chk rem n ok => Explained c.dec s.cuts false s.news.reverse s.out ∧ Current c.dec s.news s.out rem ∧
      s.news.length ∉ s.cuts ∧ (ok = false ∨ n < bufSize → rem = [])
  | .incR false => Explained c.dec s.cuts true s.news.reverse s.out ∧ Current c.dec s.news s.out []
  | .incW false _ => Explained c.dec s.cuts true s.news.reverse s.out ∧ Current c.dec s.news s.out []
  | _ => Explained c.dec s.cuts true s.news.reverse s.out

theorem explained_of_cut {songOf : String → Option (List α)} {cuts : List Nat} {e : Bool}
    {news : List (Nat × String × Nat)} {out : List (Option α)} {m : Nat} (hm : news.length ≤ m)
    (h : Explained songOf cuts e news out) :
    Explained songOf (cuts ++ [m]) e news out := by
  induction news generalizing e out with
  | nil => exact h
  | cons p older ih =>
    obtain ⟨k, name, len⟩ := p
    obtain ⟨h1, h2, l, h3, h4, h5, h6⟩ := h
    refine ⟨h1, ih (by simp at hm; omega) h2, l, h3, h4, h5, ?_⟩
    intro he hn
    exact h6 he (fun hc => hn (by simp [hc]))

theorem explained_end_cut {songOf : String → Option (List α)} {cuts : List Nat}
    {news : List (Nat × String × Nat)} {out : List (Option α)}
    (h : Explained songOf cuts false news out) :
    Explained songOf (cuts ++ [news.length]) true news out := by
  cases news with
  | nil => exact h
  | cons p older =>
    obtain ⟨k, name, len⟩ := p
    obtain ⟨h1, h2, l, h3, h4, h5, h6⟩ := h
    refine ⟨h1, explained_of_cut (by simp) h2, l, h3, h4, h5, ?_⟩
    intro he hn
    exact absurd (by simp) hn

theorem explained_end_natural {songOf : String → Option (List α)} {cuts : List Nat}
    {news : List (Nat × String × Nat)} {out : List (Option α)}
    (h : Explained songOf cuts false news.reverse out) (hc : Current songOf news out []) :
    Explained songOf cuts true news.reverse out := by
  obtain ⟨k, name, len, l, hl, hd, ha⟩ := hc
  rw [← List.head?_reverse] at hl
  cases hrev : news.reverse with
  | nil => rw [hrev] at hl; simp at hl
  | cons p older =>
    rw [hrev] at hl h
    simp at hl
    subst hl
    obtain ⟨h1, h2, l', h3, h4, h5, h6⟩ := h
    refine ⟨h1, h2, l', h3, h4, h5, ?_⟩
    intro _ _
    rw [h3] at hd
    injection hd with hd
    rw [List.append_nil] at ha
    rw [ha, hd]

theorem explained_push {songOf : String → Option (List α)} {cuts : List Nat}
    {news : List (Nat × String × Nat)} {out : List (Option α)} {rem : List α} (n : Nat)
    (h : Explained songOf cuts false news.reverse out) (hc : Current songOf news out rem) :
    Explained songOf cuts false news.reverse (out ++ (rem.take n).map some) ∧
    Current songOf news (out ++ (rem.take n).map some) (rem.drop n) := by
  obtain ⟨k, name, len, l, hl, hd, ha⟩ := hc
  have hl' := hl
  rw [← List.head?_reverse] at hl'
  cases hrev : news.reverse with
  | nil => rw [hrev] at hl'; simp at hl'
  | cons p older =>
    rw [hrev] at hl' h
    simp at hl'
    subst hl'
    obtain ⟨h1, h2, l', h3, h4, h5, h6⟩ := h
    have hsplit : audio ((out ++ (rem.take n).map some).drop k) = audio (out.drop k) ++ rem.take n := by
      rw [drop_append_le _ _ _ h1, audio_append, audio_map_some]
    constructor
    · refine ⟨by simp; omega, by rw [take_append_le _ _ _ h1]; exact h2, l', h3, h4, ?_, by simp⟩
      rw [hsplit]
      rw [h3] at hd
      injection hd with hd
      refine ⟨rem.drop n, ?_⟩
      rw [List.append_assoc, List.take_append_drop, ha, hd]
    · refine ⟨k, name, len, l, hl, hd, ?_⟩
      rw [hsplit, List.append_assoc, List.take_append_drop, ha]

theorem current_nan {songOf : String → Option (List α)} {cuts : List Nat}
    {news : List (Nat × String × Nat)} {out : List (Option α)} {rem : List α} (n : Nat)
    (h : Explained songOf cuts false news.reverse out) (hc : Current songOf news out rem) :
    Current songOf news (out ++ List.replicate n none) rem := by
  obtain ⟨k, name, len, l, hl, hd, ha⟩ := hc
  have hl' := hl
  rw [← List.head?_reverse] at hl'
  cases hrev : news.reverse with
  | nil => rw [hrev] at hl'; simp at hl'
  | cons p older =>
    rw [hrev] at hl' h
    simp at hl'
    subst hl'
    refine ⟨k, name, len, l, hl, hd, ?_⟩
    rw [drop_append_le _ _ _ h.1, audio_append, audio_replicate_none, List.append_nil, ha]

theorem outInv_init (c : Cfg α) (songs : List String) : OutInv c (init songs) := by
  simp [OutInv, init, Explained, audio]

theorem outInv_loop {c : Cfg α} {s s' : St α} (hi : OutInv c s) (h : loopStep c s = some s') : OutInv c s' := by
  obtain ⟨songs, position, tokens, inflight, playing, playingLast, current, pc, out, news, pauses, blocks, cuts⟩ := s
  obtain ⟨hcut, hi⟩ := hi
  cases pc with
  | top =>
    simp only [loopStep] at h
    split at h
    · injection h with h; subst h
      exact ⟨hcut, explained_nan _ hi⟩
    · split at h <;> injection h with h <;> subst h <;> exact ⟨hcut, hi⟩
  | store pos song =>
    simp only [loopStep] at h
    split at h <;> injection h with h <;> subst h
    · exact ⟨hcut, explained_nan _ hi⟩
    · exact ⟨hcut, hi⟩
  | opening song =>
    simp only [loopStep] at h
    split at h <;> injection h with h <;> subst h
    · exact ⟨hcut, hi⟩
    · rename_i l hdec
      simp only at hcut hi
      refine ⟨fun n hn => by have := hcut n hn; simp; omega, ?_, ?_, ?_⟩
      · simp only [List.reverse_append, List.reverse_cons, List.reverse_nil, List.nil_append, List.cons_append]
        refine ⟨Nat.le_refl _, by rw [List.take_length]; exact hi, l, hdec, rfl, ?_, by simp⟩
        simp [audio]
      · exact ⟨out.length, song, l.length, l, by simp, hdec, by simp [audio]⟩
      · intro hn
        have := hcut _ hn
        simp at this
        omega
  | h1 rem =>
    simp only [loopStep] at h
    split at h <;> injection h with h <;> subst h <;> exact ⟨hcut, hi⟩
  | h2 rem => simp only [loopStep] at h; injection h with h; subst h; exact ⟨hcut, hi⟩
  | h3 rem => simp only [loopStep] at h; injection h with h; subst h; exact ⟨hcut, hi⟩
  | body rem =>
    obtain ⟨h1, h2, h3⟩ := hi
    simp only [loopStep] at h
    split at h <;> injection h with h <;> subst h
    · obtain ⟨h1', h2'⟩ := explained_push (min bufSize rem.length) h1 h2
      refine ⟨hcut, h1', h2', h3, ?_⟩
      intro hx
      rw [List.drop_eq_nil_iff]
      rcases hx with hx | hx
      · have hb : bufSize = 512 := rfl
        simp only [decide_eq_false_iff_not] at hx; omega
      · omega
    · exact ⟨hcut, explained_nan _ h1, current_nan _ h1 h2, h3, by simp⟩
  | chk rem n ok =>
    obtain ⟨h1, h2, h3, h4⟩ := hi
    simp only [loopStep] at h
    split at h
    · injection h with h; subst h
      refine ⟨?_, ?_⟩
      · intro m hm
        simp at hm
        rcases hm with hm | hm
        · exact hcut m hm
        · simp [hm]
      · simpa using explained_end_cut h1
    · split at h <;> injection h with h <;> subst h
      · rename_i hx
        have := h4 hx
        subst this
        exact ⟨hcut, explained_end_natural h1 h2, h2⟩
      · exact ⟨hcut, h1, h2, h3⟩
  | incR skip =>
    simp only [loopStep] at h
    injection h with h; subst h
    cases skip <;> exact ⟨hcut, hi⟩
  | incW skip v =>
    simp only [loopStep] at h
    injection h with h; subst h
    cases skip
    · exact ⟨hcut, hi.1⟩
    · exact ⟨hcut, hi⟩
  | brk =>
    simp only [loopStep] at h
    injection h with h; subst h
    exact ⟨hcut, explained_nan _ hi⟩
  | crashed => simp [loopStep] at h

theorem outInv_step {c : Cfg α} {s s' : St α} {a : Act} (hi : OutInv c s) (h : step c s a = some s') :
    OutInv c s' := by
  rcases step_cases h with ⟨_, h⟩ | ⟨p, _, rfl⟩ | ⟨_, _, _, rfl⟩ | ⟨b, _, rfl⟩ | ⟨l, _, rfl⟩
  · exact outInv_loop hi h
  all_goals exact hi

end MS.StreamLoop
