import Verif.Props.StreamOrder
/-!
# Properties C63, C64: jumps complete, and what they cut
-/
namespace MS.StreamLoop
variable {α : Type}

/-! ## C63 -/

/-- Specification: a non-empty playlist whose files can all be decoded. -/
def Playable (c : Cfg α) (songs : List String) : Prop := songs ≠ [] ∧ ∀ n ∈ songs, n ≠ "" ∧ (c.dec n).isSome

/-- Steps of the loop until it next looks for a jump request. -/
def dist (c : Cfg α) : Pc α → Nat
  | .chk _ _ _ => 0
  | .body _ => 1
  | .h3 _ => 2
  | .h2 _ => 3
  | .h1 _ => 4
  | .opening song => if (c.dec song).isSome then 5 else 11
  | .store _ song => if song ≠ "" ∧ (c.dec song).isSome then 6 else 12
  | .top => 7
  | .brk => 8
  | .incW _ _ => 9
  | .incR _ => 10
  | .crashed => 0

theorem dist_le (c : Cfg α) (pc : Pc α) : dist c pc ≤ 12 := by
  cases pc <;> simp only [dist] <;> first | omega | (split <;> omega)

/-- The loop gets closer to looking, or looks and takes a request. -/
theorem dist_loop {c : Cfg α} {s s' : St α} (hp : Playable c s.songs) (hn : NonNeg s) (ht : 0 < s.tokens)
    (h : loopStep c s = some s') :
    (s'.tokens = s.tokens ∧ s'.inflight = s.inflight ∧ dist c s'.pc < dist c s.pc) ∨
      (s'.tokens = s.tokens - 1 ∧ s'.inflight = s.inflight ∧ s'.cuts.length = s.cuts.length + 1) := by
  obtain ⟨songs, position, tokens, inflight, playing, playingLast, current, pc, out, news, pauses, blocks, cuts⟩ := s
  obtain ⟨⟨p, hp0⟩, hpc⟩ := hn
  simp only at hp ht hp0 hpc
  subst hp0
  cases pc with
  | top =>
    simp only [loopStep] at h
    obtain ⟨song, hs1, hs2⟩ := goGet_nat songs p hp.1
    have hlen : ¬ songs.length = 0 := by intro hx; exact hp.1 (List.eq_nil_of_length_eq_zero hx)
    rw [if_neg hlen, tmod_nat, hs2] at h
    injection h with h; subst h
    left
    have := hp.2 song (List.mem_of_getElem? hs1)
    simp [dist, this]
  | store pos song =>
    simp only [loopStep] at h
    split at h
    · rename_i he
      injection h with h; subst h
      left; simp [dist, he]
    · rename_i he
      injection h with h; subst h
      left; simp only [dist, true_and]
      by_cases hd : (c.dec song).isSome <;> simp [he, hd]
  | opening song =>
    simp only [loopStep] at h
    split at h <;> rename_i hd <;> injection h with h <;> subst h <;> left <;> simp [dist, hd]
  | h1 rem => simp only [loopStep] at h; split at h <;> injection h with h <;> subst h <;> left <;> simp [dist]
  | h2 rem => simp only [loopStep] at h; injection h with h; subst h; left; simp [dist]
  | h3 rem => simp only [loopStep] at h; injection h with h; subst h; left; simp [dist]
  | body rem => simp only [loopStep] at h; split at h <;> injection h with h <;> subst h <;> left <;> simp [dist]
  | chk rem n ok =>
    simp only [loopStep] at h
    rw [if_pos ht] at h
    injection h with h; subst h
    right; simp
  | incR skip => simp only [loopStep] at h; injection h with h; subst h; left; simp [dist]
  | incW skip v => simp only [loopStep] at h; injection h with h; subst h; left; cases skip <;> simp [dist]
  | brk => simp only [loopStep] at h; injection h with h; subst h; left; simp [dist]
  | crashed => simp [loopStep] at h

/-- What the other goroutines may do for jumps to complete: no jump to a negative position, and edits keep the playlist
playable. -/
def fairAct (c : Cfg α) (a : Act) : Prop :=
  (∀ p, a = .jumpWrite p → 0 ≤ p) ∧ (∀ l, a = .edit l → Playable c l)

/-- Specification: at some point of the schedule the waiting `SetPos` could return. -/
def CanReturn (c : Cfg α) (s : St α) (acts : List Act) : Prop :=
  ∃ pre post s1, acts = pre ++ post ∧ run c s pre = some s1 ∧ (step c s1 .jumpToken).isSome

theorem canReturn_cons {c : Cfg α} {s s1 : St α} {a : Act} {acts : List Act} (h : step c s a = some s1)
    (hc : CanReturn c s1 acts) : CanReturn c s (a :: acts) := by
  obtain ⟨pre, post, s2, e, hr, hs⟩ := hc
  exact ⟨a :: pre, post, s2, by simp [e], by simp [run, h, hr], hs⟩

theorem canReturn_now {c : Cfg α} {s : St α} {acts : List Act} (hc : s.pc ≠ .crashed) (hi : 0 < s.inflight)
    (ht : s.tokens < 2) : CanReturn c s acts := by
  refine ⟨[], acts, s, rfl, rfl, ?_⟩
  unfold step
  split
  · rename_i h; exact absurd h hc
  · simp [hi, ht]

theorem nonNeg_notCrashed {s : St α} (h : NonNeg s) : s.pc ≠ .crashed := by
  intro hc
  have := h.2
  rw [hc] at this
  exact this

theorem completes_aux (c : Cfg α) (acts : List Act) : ∀ (s s' : St α), Playable c s.songs → NonNeg s → s.tokens ≤ 2 →
    0 < s.inflight → (∀ a ∈ acts, fairAct c a) → run c s acts = some s' →
    dist c s.pc < acts.countP (fun a => match a with | .loop => true | _ => false) → CanReturn c s acts := by
  induction acts with
  | nil => intro s s' _ _ _ _ _ _ h; simp at h
  | cons a acts ih =>
    intro s s' hp hn htk hi hf hr hd
    by_cases ht : s.tokens < 2
    · exact canReturn_now (nonNeg_notCrashed hn) hi ht
    · have ht2 : s.tokens = 2 := by omega
      simp only [run] at hr
      split at hr
      · rename_i s1 hs1
        have hfa := hf a List.mem_cons_self
        have hn1 : NonNeg s1 := nonNeg_step hfa.1 hn hs1
        have hf1 : ∀ b ∈ acts, fairAct c b := fun b hb => hf b (List.mem_cons_of_mem _ hb)
        apply canReturn_cons hs1
        rcases step_cases hs1 with ⟨rfl, h⟩ | ⟨p, rfl, rfl⟩ | ⟨_, _, hlt, _⟩ | ⟨b, rfl, rfl⟩ | ⟨l, rfl, rfl⟩
        · have hsongs := songs_loop h
          simp only [List.countP_cons] at hd
          rcases dist_loop hp hn (by omega) h with ⟨e1, e2, e3⟩ | ⟨e1, e2, _⟩
          · exact ih s1 s' (by rw [hsongs]; exact hp) hn1 (by omega) (by omega) hf1 hr (by simp at hd; omega)
          · exact canReturn_now (nonNeg_notCrashed hn1) (by omega) (by omega)
        · exact ih _ s' hp hn1 htk (by simp) hf1 hr (by simpa [List.countP_cons] using hd)
        · omega
        · exact ih _ s' hp hn1 htk hi hf1 hr (by simpa [List.countP_cons] using hd)
        · exact ih _ s' (hfa.2 l rfl) hn1 htk hi hf1 hr (by simpa [List.countP_cons] using hd)
      · simp at hr

theorem tokens_le {c : Cfg α} {s s' : St α} {a : Act} (h : s.tokens ≤ 2) (hs : step c s a = some s') : s'.tokens ≤ 2 := by
  rcases step_cases hs with ⟨_, h1⟩ | ⟨p, _, rfl⟩ | ⟨_, _, hlt, rfl⟩ | ⟨b, _, rfl⟩ | ⟨l, _, rfl⟩
  · have : s'.tokens ≤ s.tokens := by
      unfold loopStep at h1
      grind
    omega
  · exact h
  · simp only; omega
  · exact h
  · exact h

/-- C63, where it holds: whatever happened before (without jumps to negative positions), once the playlist is playable
and stays so, a `jump` that waits can return before the streaming loop has made 13 steps, whatever the other sessions do
meanwhile. Missing: playlists without playable songs (`C63_hangs`), where nobody ever takes the requests. -/
theorem C63_completes_partial (c : Cfg α) (songs : List String) (before acts : List Act) (s s' : St α)
    (hb : ∀ p, Act.jumpWrite p ∈ before → 0 ≤ p) (h0 : run c (init songs) before = some s) (hp : Playable c s.songs)
    (hi : 0 < s.inflight) (hf : ∀ a ∈ acts, fairAct c a) (hr : run c s acts = some s')
    (hl : 13 ≤ acts.countP (fun a => match a with | .loop => true | _ => false)) : CanReturn c s acts := by
  have hn := C12_nonNeg_reachable c songs before s hb h0
  have ht : s.tokens ≤ 2 :=
    run_induct (c := c) (ok := fun _ => True) (P := fun s => s.tokens ≤ 2) (fun _ _ _ _ h hs => tokens_le h hs)
      (fun _ _ => trivial) (by simp [init]) h0
  have := dist_le c s.pc
  exact completes_aux c acts s s' hp hn ht hi hf hr (by omega)

/-- C63 is false: while no song of the playlist can be decoded (in particular while it is empty), and two requests are
waiting, no `jump` ever returns, whatever else happens. -/
theorem C63_hangs (c : Cfg α) (s0 s : St α) (acts : List Act) (htop : s0.pc = .top) (htok : s0.tokens = 2)
    (hbad : ∀ n ∈ s0.songs, c.dec n = none) (hno : ∀ a ∈ acts, ∀ l, a = .edit l → ∀ n ∈ l, c.dec n = none)
    (h : run c s0 acts = some s) : step c s .jumpToken = none := by
  have hi : s.tokens = 2 ∧ (∀ n ∈ s.songs, c.dec n = none) ∧
      (match s.pc with
        | .top => True | .store _ song => c.dec song = none | .opening song => c.dec song = none | .incR sk => sk = true
        | .incW sk _ => sk = true | .crashed => True | _ => False) := by
    refine run_induct (c := c) (ok := fun a => ∀ l, a = .edit l → ∀ n ∈ l, c.dec n = none)
      (P := fun s => s.tokens = 2 ∧ (∀ n ∈ s.songs, c.dec n = none) ∧
      (match s.pc with
        | .top => True | .store _ song => c.dec song = none | .opening song => c.dec song = none | .incR sk => sk = true
        | .incW sk _ => sk = true | .crashed => True | _ => False)) ?_ hno ⟨htok, hbad, by rw [htop]; trivial⟩ h
    intro s s' a hok ⟨i1, i2, i3⟩ hs
    rcases step_cases hs with ⟨_, h⟩ | ⟨p, _, rfl⟩ | ⟨_, _, hlt, rfl⟩ | ⟨b, _, rfl⟩ | ⟨l, e, rfl⟩
    · refine ⟨?_, by rw [songs_loop h]; exact i2, ?_⟩
      · obtain ⟨songs, position, tokens, inflight, playing, playingLast, current, pc, out, news, pauses, blocks, cuts⟩ := s
        cases pc <;> simp only at i3 <;> simp only [loopStep] at h <;> grind
      · obtain ⟨songs, position, tokens, inflight, playing, playingLast, current, pc, out, news, pauses, blocks, cuts⟩ := s
        cases pc with
        | top =>
          simp only [loopStep] at h
          split at h
          · injection h with h; subst h; trivial
          · split at h
            · rename_i song hg
              injection h with h; subst h
              apply i2
              simp only [Playlist.goGet] at hg
              split at hg
              · simp at hg
              · split at hg
                · rename_i hx; injection hg with hg; subst hg; exact List.mem_of_getElem? hx
                · simp at hg
            · injection h with h; subst h; trivial
        | store pos song => simp only [loopStep] at h; split at h <;> injection h with h <;> subst h <;> first | trivial | exact i3
        | opening song =>
          simp only at i3
          simp only [loopStep, i3] at h
          injection h with h; subst h; rfl
        | incR sk => simp only [loopStep] at h; injection h with h; subst h; exact i3
        | incW sk v =>
          simp only at i3
          subst i3
          simp only [loopStep] at h; injection h with h; subst h; trivial
        | crashed => simp [loopStep] at h
        | _ => exact absurd i3 id
    · exact ⟨i1, i2, i3⟩
    · omega
    · exact ⟨i1, i2, i3⟩
    · exact ⟨i1, hok l e, i3⟩
  unfold step
  split
  · rfl
  · simp [hi.1]

/-! ## C64 -/

/-- Every interruption is due to a jump: as many songs were interrupted as requests were sent, less those still
waiting. -/
theorem C64_one_cut_per_jump (c : Cfg α) (songs : List String) (acts : List Act) (s : St α)
    (h : run c (init songs) acts = some s) :
    s.cuts.length + s.tokens = acts.countP (fun a => match a with | .jumpToken => true | _ => false) := by
  have key : ∀ (acts : List Act) (s0 s : St α), run c s0 acts = some s → s.cuts.length + s.tokens =
      s0.cuts.length + s0.tokens + acts.countP (fun a => match a with | .jumpToken => true | _ => false) := by
    intro acts
    induction acts with
    | nil => intro s0 s h; simp [run] at h; subst h; simp
    | cons a acts ih =>
      intro s0 s h
      simp only [run] at h
      split at h
      · rename_i s1 hs1
        have := ih s1 s h
        rw [this]
        simp only [List.countP_cons]
        rcases step_cases hs1 with ⟨rfl, h⟩ | ⟨p, rfl, rfl⟩ | ⟨rfl, _, hlt, rfl⟩ | ⟨b, rfl, rfl⟩ | ⟨l, rfl, rfl⟩
        · have : s1.cuts.length + s1.tokens = s0.cuts.length + s0.tokens := by
            unfold loopStep at h
            grind
          simp only [Bool.false_eq_true, if_false]; omega
        · simp
        · simp only [if_true]; omega
        · simp
        · simp
      · simp at h
  have := key acts (init songs) s h
  simpa [init] using this

/-- In the middle of a song, before the end of it has been noticed. -/
def midSong : Pc α → Bool
  | .h1 _ => true
  | .h2 _ => true
  | .h3 _ => true
  | .body _ => true
  | .chk _ _ _ => true
  | _ => false

/-- C64, where it holds: a request that is there in the middle of a song is used on that very song: whatever happens
afterwards, when another song has been announced, the first interruption since was of the song that was playing.
Missing: requests sent while no song is playing (`C64_stale_request`). -/
theorem C64_cuts_current_partial (c : Cfg α) (s0 s : St α) (acts : List Act) (hpc : midSong s0.pc = true)
    (ht : 0 < s0.tokens) (h : run c s0 acts = some s) (hn : s.news ≠ s0.news) :
    s.cuts[s0.cuts.length]? = some s0.news.length := by
  have hi : (midSong s.pc = true ∧ 0 < s.tokens ∧ s.news = s0.news ∧ s.cuts = s0.cuts) ∨
      ∃ rest, s.cuts = s0.cuts ++ s0.news.length :: rest := by
    clear hn
    refine run_induct (c := c) (ok := fun _ => True)
      (P := fun s => (midSong s.pc = true ∧ 0 < s.tokens ∧ s.news = s0.news ∧ s.cuts = s0.cuts) ∨
        ∃ rest, s.cuts = s0.cuts ++ s0.news.length :: rest) ?_ (fun _ _ => trivial) (.inl ⟨hpc, ht, rfl, rfl⟩) h
    intro s s' a _ hi hs
    rcases hi with ⟨i1, i2, i3, i4⟩ | ⟨rest, hr⟩
    · rcases step_cases hs with ⟨_, h⟩ | ⟨p, _, rfl⟩ | ⟨_, _, hlt, rfl⟩ | ⟨b, _, rfl⟩ | ⟨l, _, rfl⟩
      · obtain ⟨songs, position, tokens, inflight, playing, playingLast, current, pc, out, news, pauses, blocks, cuts⟩ := s
        simp only at i1 i2 i3 i4
        subst i3 i4
        cases pc with
        | h1 rem => simp only [loopStep] at h; split at h <;> injection h with h <;> subst h <;> exact .inl ⟨rfl, i2, rfl, rfl⟩
        | h2 rem => simp only [loopStep] at h; injection h with h; subst h; exact .inl ⟨rfl, i2, rfl, rfl⟩
        | h3 rem => simp only [loopStep] at h; injection h with h; subst h; exact .inl ⟨rfl, i2, rfl, rfl⟩
        | body rem => simp only [loopStep] at h; split at h <;> injection h with h <;> subst h <;> exact .inl ⟨rfl, i2, rfl, rfl⟩
        | chk rem n ok =>
          simp only [loopStep] at h
          rw [if_pos i2] at h
          injection h with h; subst h
          exact .inr ⟨[], rfl⟩
        | _ => simp [midSong] at i1
      · exact .inl ⟨i1, i2, i3, i4⟩
      · exact .inl ⟨i1, by simp, i3, i4⟩
      · exact .inl ⟨i1, i2, i3, i4⟩
      · exact .inl ⟨i1, i2, i3, i4⟩
    · right
      rcases step_cases hs with ⟨_, h⟩ | ⟨p, _, rfl⟩ | ⟨_, _, hlt, rfl⟩ | ⟨b, _, rfl⟩ | ⟨l, _, rfl⟩
      · have : s'.cuts = s.cuts ∨ ∃ x, s'.cuts = s.cuts ++ [x] := by
          unfold loopStep at h
          grind
        rcases this with e | ⟨x, e⟩
        · exact ⟨rest, by rw [e, hr]⟩
        · exact ⟨rest ++ [x], by rw [e, hr]; simp⟩
      · exact ⟨rest, hr⟩
      · exact ⟨rest, hr⟩
      · exact ⟨rest, hr⟩
      · exact ⟨rest, hr⟩
  rcases hi with ⟨_, _, h3, _⟩ | ⟨rest, hr⟩
  · exact absurd h3 hn
  · rw [hr]; simp

/-- A song of 600 samples, more than one block. -/
def longCfg : Cfg Unit := { dec := fun _ => some (List.replicate 600 ()), brk := 1 }

set_option maxRecDepth 20000 in
/-- C64 is false: a jump issued while the playlist is empty interrupts the song queued afterwards: it is stopped after
its first block of 512 samples and started again. -/
theorem C64_stale_request :
    ∃ s, run longCfg (init [])
        ([.setPlaying true, .jumpWrite 0, .jumpToken, .edit ["a"]] ++ List.replicate 12 .loop) = some s ∧
      s.news = [(0, "a", 600), (513, "a", 600)] ∧ s.cuts = [1] := ⟨_, rfl, rfl, rfl⟩

section examples
/-- A third `jump` on a playable playlist. -/
example : ∃ s, run tinyCfg (init ["a"]) [.jumpWrite 0, .jumpToken, .jumpWrite 0, .jumpToken, .jumpWrite 0] = some s ∧
    Playable tinyCfg s.songs ∧ 0 < s.inflight ∧ step tinyCfg s .jumpToken = none :=
  ⟨_, rfl, ⟨by simp [init], by simp [init, tinyCfg]⟩, by decide, rfl⟩
/-- Three jumps on a playlist of broken files: the third hangs. -/
example : ∃ s, run tinyCfg (init ["bad", "bad"]) [.jumpWrite 0, .jumpToken, .jumpWrite 0, .jumpToken, .jumpWrite 0] = some s ∧
    s.pc = .top ∧ s.tokens = 2 ∧ (∀ n ∈ s.songs, tinyCfg.dec n = none) ∧ s.inflight = 1 :=
  ⟨_, rfl, rfl, rfl, by simp [init, tinyCfg], rfl⟩
set_option maxRecDepth 20000 in
/-- A jump in the middle of a song. -/
example : ∃ s0 s, run longCfg (init ["a", "b"]) [.setPlaying true, .loop, .loop, .loop, .loop, .jumpWrite 1, .jumpToken] = some s0 ∧
    midSong s0.pc = true ∧ 0 < s0.tokens ∧ run longCfg s0 (List.replicate 8 .loop) = some s ∧ s.news ≠ s0.news :=
  ⟨_, _, rfl, rfl, by decide, rfl, by decide⟩
end examples

end MS.StreamLoop
