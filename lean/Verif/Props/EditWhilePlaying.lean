import Verif.Props.StreamOrder
import Verif.Props.PlaylistEdit
/-!
# Property C80: editing the playlist while a song plays

The user expects that after an edit the song that follows the current one *in the edited list* is played next. The
loop only remembers an index, so this holds exactly when the edit happens behind the current song.
-/
namespace MS.StreamLoop
open MS.Spec

variable {α : Type}

/-- Steps of the loop, pausing/resuming and edits of the list: everything but jumps. -/
def noJump : Act → Prop
  | .loop => True
  | .setPlaying _ => True
  | .edit _ => True
  | _ => False

/-- The loop is inside a song, or has ended one and is in the break after it. -/
def beforeNext : Pc α → Bool
  | .h1 _ => true
  | .h2 _ => true
  | .h3 _ => true
  | .body _ => true
  | .chk _ _ _ => true
  | .incR false => true
  | .incW false _ => true
  | .brk => true
  | _ => false

/-- The loop is inside a song. -/
def songPc : Pc α → Bool
  | .h1 _ => true
  | .h2 _ => true
  | .h3 _ => true
  | .body _ => true
  | .chk _ _ _ => true
  | _ => false

/-- While no further song is announced, the loop still refers to index `p`. -/
def KeepInv (p : Nat) (old : List (Nat × String × Nat)) (s : St α) : Prop :=
  s.tokens = 0 ∧ ((∃ e rest, s.news = old ++ e :: rest) ∨
    (s.news = old ∧
      match s.pc with
      | .h1 _ => s.position = p
      | .h2 _ => s.position = p
      | .h3 _ => s.position = p
      | .body _ => s.position = p
      | .chk _ _ _ => s.position = p
      | .incR false => s.position = p
      | .incW false v => v = p
      | .brk => s.position = p + 1
      | _ => True))

theorem keepInv_step {c : Cfg α} {p : Nat} {old : List (Nat × String × Nat)} {s s' : St α} {a : Act}
    (ha : noJump a) (hi : KeepInv p old s) (h : step c s a = some s') : KeepInv p old s' := by
  rcases step_cases h with ⟨_, h⟩ | ⟨p, rfl, _⟩ | ⟨rfl, _⟩ | ⟨b, _, rfl⟩ | ⟨l, _, rfl⟩
  rotate_left
  · exact absurd ha id
  · exact absurd ha id
  · exact hi
  · exact hi
  obtain ⟨h1, h2⟩ := hi
  have ht : s'.tokens = 0 := by
    unfold loopStep at h
    grind
  refine ⟨ht, ?_⟩
  rcases h2 with ⟨e, rest, h2⟩ | ⟨h2, h3⟩
  · obtain ⟨new, hn⟩ := news_mono_loop h
    exact Or.inl ⟨e, rest ++ new, by rw [hn, h2]; simp⟩
  obtain ⟨songs, position, tokens, inflight, playing, playingLast, current, pc, out, news, pauses, blocks, cuts⟩ := s
  simp only at h1 h2 h3
  subst h1 h2
  cases pc with
  | top =>
    simp only [loopStep] at h
    split at h
    · injection h with h; subst h; exact Or.inr ⟨rfl, trivial⟩
    · split at h <;> injection h with h <;> subst h <;> exact Or.inr ⟨rfl, trivial⟩
  | store pos song =>
    simp only [loopStep] at h
    split at h <;> injection h with h <;> subst h <;> exact Or.inr ⟨rfl, trivial⟩
  | opening song =>
    simp only [loopStep] at h
    split at h <;> injection h with h <;> subst h
    · exact Or.inr ⟨rfl, trivial⟩
    · exact Or.inl ⟨_, [], rfl⟩
  | h1 rem =>
    simp only [loopStep] at h
    split at h <;> injection h with h <;> subst h <;> exact Or.inr ⟨rfl, h3⟩
  | h2 rem => simp only [loopStep] at h; injection h with h; subst h; exact Or.inr ⟨rfl, h3⟩
  | h3 rem => simp only [loopStep] at h; injection h with h; subst h; exact Or.inr ⟨rfl, h3⟩
  | body rem =>
    simp only [loopStep] at h
    split at h <;> injection h with h <;> subst h <;> exact Or.inr ⟨rfl, h3⟩
  | chk rem n ok =>
    simp only [loopStep] at h
    rw [if_neg (by omega)] at h
    split at h <;> injection h with h <;> subst h <;> exact Or.inr ⟨rfl, h3⟩
  | incR skip =>
    simp only [loopStep] at h
    injection h with h; subst h
    cases skip
    · exact Or.inr ⟨rfl, h3⟩
    · exact Or.inr ⟨rfl, trivial⟩
  | incW skip v =>
    simp only [loopStep] at h
    injection h with h; subst h
    cases skip
    · refine Or.inr ⟨rfl, ?_⟩
      simp only at h3
      simp [h3]
    · exact Or.inr ⟨rfl, trivial⟩
  | brk =>
    simp only [loopStep] at h
    injection h with h; subst h; exact Or.inr ⟨rfl, trivial⟩
  | crashed => simp [loopStep] at h

/-- C80, exactly what the program does: a song is playing with the loop at index `p`; the list is edited in any way,
any number of times and at any moments up to a moment `s1` at which the next song has not been picked yet. If the
list is then left alone (all its songs playable, no jumps), the next songs announced are those at the indices
`p+1`, `p+2`, ... of the *edited* list, modulo its length: the index counts, not the song. -/
theorem C80_next_exact (c : Cfg α) (s0 s1 s : St α) (p : Nat) (edits acts : List Act)
    (hin : songPc s0.pc = true) (hpos : s0.position = p) (htok : s0.tokens = 0)
    (he : ∀ a ∈ edits, noJump a) (h1 : run c s0 edits = some s1)
    (hnews : s1.news = s0.news) (hbefore : beforeNext s1.pc = true)
    (hne : s1.songs ≠ []) (hplay : ∀ n ∈ s1.songs, n ≠ "" ∧ (c.dec n).isSome)
    (hcalm : ∀ a ∈ acts, calm a) (h : run c s1 acts = some s) :
    ∃ new, s.news = s0.news ++ new ∧
      ∀ (i : Nat) e, new[i]? = some e → s1.songs[(p + 1 + i) % s1.songs.length]? = some e.2.1 := by
  have hk0 : KeepInv p s0.news s0 := by
    refine ⟨htok, Or.inr ⟨rfl, ?_⟩⟩
    cases hpc : s0.pc <;> rw [hpc] at hin <;> simp [songPc] at hin <;> exact hpos
  have hk : KeepInv p s0.news s1 :=
    run_induct (ok := noJump) (P := KeepInv p s0.news) (fun _ _ _ ha hi hs => keepInv_step ha hi hs) he hk0 h1
  obtain ⟨k1, k2⟩ := hk
  have k3 : ∃ q : Nat, (match s1.pc with
      | .incW false v => v = q
      | .brk => s1.position = q + 1
      | _ => s1.position = q) ∧ q = p := by
    rcases k2 with ⟨e, rest, k2⟩ | ⟨_, k3⟩
    · rw [hnews] at k2
      have := congrArg List.length k2
      simp at this
    · refine ⟨p, ?_, rfl⟩
      cases hpc : s1.pc with
      | incR b => rw [hpc] at hbefore k3; cases b <;> simp_all [beforeNext]
      | incW b v => rw [hpc] at hbefore k3; cases b <;> simp_all [beforeNext]
      | _ => rw [hpc] at hbefore k3; first | simp [beforeNext] at hbefore; done | exact k3
  obtain ⟨q, k3, rfl⟩ := k3
  have hi : OrdInv s1.songs (q + 1) s0.news s1 := by
    refine ⟨rfl, k1, [], by simpa using hnews, by simp, ?_⟩
    cases hpc : s1.pc with
    | incR b => rw [hpc] at hbefore k3; cases b <;> simp [beforeNext] at hbefore; exact ⟨q, k3, by simp⟩
    | incW b v => rw [hpc] at hbefore k3; cases b <;> simp [beforeNext] at hbefore; exact ⟨q, k3, by simp⟩
    | brk => rw [hpc] at k3; exact ⟨q + 1, by simpa using k3, by simp⟩
    | _ => rw [hpc] at hbefore k3; first | simp [beforeNext] at hbefore; done | exact ⟨q, k3, by simp⟩
  have hi' : OrdInv s1.songs (q + 1) s0.news s :=
    run_induct (ok := calm) (P := OrdInv s1.songs (q + 1) s0.news)
      (fun _ _ _ ha hi hs => ordInv_step hne hplay ha hi hs) hcalm hi h
  obtain ⟨_, _, new, n1, n2, _⟩ := hi'
  exact ⟨new, n1, n2⟩

/-- Without jumps and edits the loop's index during a song is that song's index in the list: the hypothesis of the
theorems below. -/
def CurInv (songs : List String) (s : St α) : Prop :=
  s.songs = songs ∧ s.tokens = 0 ∧
    match s.pc with
    | .top => ∃ p : Nat, s.position = p
    | .brk => ∃ p : Nat, s.position = p
    | .store pos song => ∃ p : Nat, pos = p ∧ songs[p]? = some song
    | .opening song => ∃ p : Nat, s.position = p ∧ songs[p]? = some song
    | .incW _ v => ∃ p : Nat, v = p
    | .crashed => False
    | _ => ∃ p : Nat, s.position = p ∧ songs[p]? = some s.current

theorem curInv_step {c : Cfg α} {songs : List String} {s s' : St α} {a : Act} (ha : calm a)
    (hi : CurInv songs s) (h : step c s a = some s') : CurInv songs s' := by
  rcases step_cases h with ⟨_, h⟩ | ⟨p, rfl, _⟩ | ⟨rfl, _⟩ | ⟨b, _, rfl⟩ | ⟨l, rfl, _⟩
  rotate_left
  · exact absurd ha id
  · exact absurd ha id
  · exact hi
  · exact absurd ha id
  obtain ⟨songs', position, tokens, inflight, playing, playingLast, current, pc, out, news, pauses, blocks, cuts⟩ := s
  obtain ⟨h1, h2, h5⟩ := hi
  simp only at h1 h2 h5
  subst h1 h2
  cases pc with
  | top =>
    obtain ⟨p, hp⟩ := h5
    simp only [loopStep] at h
    split at h
    · injection h with h; subst h; exact ⟨rfl, rfl, p, hp⟩
    · rename_i hlen
      have hne : songs' ≠ [] := by intro hx; simp [hx] at hlen
      obtain ⟨song, hs1, hs2⟩ := goGet_nat songs' p hne
      rw [hp, tmod_nat, hs2] at h
      injection h with h; subst h
      exact ⟨rfl, rfl, _, rfl, hs1⟩
  | store pos song =>
    obtain ⟨p, hp, hs⟩ := h5
    simp only [loopStep] at h
    split at h <;> injection h with h <;> subst h
    · exact ⟨rfl, rfl, p, hp⟩
    · exact ⟨rfl, rfl, p, hp, hs⟩
  | opening song =>
    obtain ⟨p, hp, hs⟩ := h5
    simp only [loopStep] at h
    split at h <;> injection h with h <;> subst h
    · exact ⟨rfl, rfl, p, hp, hs⟩
    · exact ⟨rfl, rfl, p, hp, hs⟩
  | h1 rem =>
    simp only [loopStep] at h
    split at h <;> injection h with h <;> subst h <;> exact ⟨rfl, rfl, h5⟩
  | h2 rem => simp only [loopStep] at h; injection h with h; subst h; exact ⟨rfl, rfl, h5⟩
  | h3 rem => simp only [loopStep] at h; injection h with h; subst h; exact ⟨rfl, rfl, h5⟩
  | body rem =>
    simp only [loopStep] at h
    split at h <;> injection h with h <;> subst h <;> exact ⟨rfl, rfl, h5⟩
  | chk rem n ok =>
    simp only [loopStep] at h
    rw [if_neg (by omega)] at h
    split at h <;> injection h with h <;> subst h <;> exact ⟨rfl, rfl, h5⟩
  | incR skip =>
    obtain ⟨p, hp, _⟩ := h5
    simp only [loopStep] at h
    injection h with h; subst h
    exact ⟨rfl, rfl, p, hp⟩
  | incW skip v =>
    obtain ⟨p, rfl⟩ := h5
    simp only [loopStep] at h
    injection h with h; subst h
    cases skip <;> exact ⟨rfl, rfl, p + 1, by simp⟩
  | brk =>
    simp only [loopStep] at h
    injection h with h; subst h
    exact ⟨rfl, rfl, h5⟩
  | crashed => simp [loopStep] at h

/-- As long as nobody has jumped or edited, during every song the loop's index is the index of the current song in
the list, whatever the files. -/
theorem C80_index_of_current (c : Cfg α) (songs : List String) (acts : List Act) (s : St α)
    (hcalm : ∀ a ∈ acts, calm a) (h : run c (init songs) acts = some s) (hin : songPc s.pc = true) :
    s.songs = songs ∧ s.tokens = 0 ∧ ∃ p : Nat, s.position = p ∧ songs[p]? = some s.current := by
  have hi : CurInv songs s :=
    run_induct (ok := calm) (P := CurInv songs) (fun _ _ _ ha hi hs => curInv_step ha hi hs) hcalm
      (show CurInv songs (init songs) from ⟨rfl, rfl, 0, rfl⟩) h
  obtain ⟨h1, h2, h3⟩ := hi
  refine ⟨h1, h2, ?_⟩
  cases hpc : s.pc <;> rw [hpc] at hin h3 <;> simp [songPc] at hin <;> exact h3

/-! ### The single commands -/

/-- The song played next after an edit to `songs'` made while index `p` was playing. -/
theorem next_after (c : Cfg α) (s0 s : St α) (p : Nat) (songs' : List String) (acts : List Act)
    (hin : songPc s0.pc = true) (hpos : s0.position = p) (htok : s0.tokens = 0)
    (hne : songs' ≠ []) (hplay : ∀ n ∈ songs', n ≠ "" ∧ (c.dec n).isSome)
    (hcalm : ∀ a ∈ acts, calm a) (h : run c s0 (.edit songs' :: acts) = some s) :
    s.news = s0.news ∨ ∃ k name len rest, s.news = s0.news ++ (k, name, len) :: rest ∧
      songs'[(p + 1) % songs'.length]? = some name := by
  have hstep : step c s0 (.edit songs') = some { s0 with songs := songs' } := by
    unfold step
    cases hpc : s0.pc <;> rw [hpc] at hin <;> simp [songPc] at hin <;> simp
  have hb : beforeNext s0.pc = true := by
    cases hpc : s0.pc <;> rw [hpc] at hin <;> simp [songPc] at hin <;> rfl
  simp only [run, hstep] at h
  obtain ⟨new, n1, n2⟩ := C80_next_exact c s0 { s0 with songs := songs' } s p [.edit songs'] acts hin hpos htok
    (by simp [noJump]) (by simp [run, hstep]) rfl hb hne hplay hcalm h
  cases new with
  | nil => exact Or.inl (by simpa using n1)
  | cons e rest =>
    obtain ⟨k, name, len⟩ := e
    exact Or.inr ⟨k, name, len, rest, n1, n2 0 _ rfl⟩

open Playlist (clip insertSong removeSong)

/-- C80, the part that holds for `InsertSong`: while the song at index `p` plays, a song inserted behind it (at any
index `> p` after clipping) leaves the order intact: what is announced next is the song that follows the playing one
in the edited list, that is the inserted song if it was inserted directly behind, otherwise the old follower.
Missing from the full property: insertion at or before the playing song (`C80_insert_before_repeats`). -/
theorem C80_insert_behind_partial (c : Cfg α) (s0 s : St α) (p : Nat) (song : String) (i : Int)
    (songs' : List String) (acts : List Act)
    (hin : songPc s0.pc = true) (hpos : s0.position = p) (htok : s0.tokens = 0) (hp : p < s0.songs.length)
    (hins : insertSong s0.songs song i = .ok songs') (hi : (p : Int) < i)
    (hplay : ∀ n ∈ songs', n ≠ "" ∧ (c.dec n).isSome)
    (hcalm : ∀ a ∈ acts, calm a) (h : run c s0 (.edit songs' :: acts) = some s) :
    songs'[p]? = s0.songs[p]? ∧
    (s.news = s0.news ∨ ∃ k name len rest, s.news = s0.news ++ (k, name, len) :: rest ∧
      songs'[p + 1]? = some name ∧
      some name = if i = p + 1 ∨ s0.songs.length ≤ p + 1 then some song else s0.songs[p + 1]?) := by
  rw [Playlist.C05_insert] at hins
  injection hins with hins
  have hlen : songs'.length = s0.songs.length + 1 := by
    subst hins; simp only [List.length_append, List.length_take, List.length_cons, List.length_drop, clip]; omega
  have hc : p < clip i s0.songs.length := by unfold clip; omega
  have hcl : clip i s0.songs.length ≤ s0.songs.length := by unfold clip; omega
  refine ⟨?_, ?_⟩
  · subst hins
    rw [List.getElem?_append_left (by rw [List.length_take]; omega), List.getElem?_take_of_lt hc]
  rcases next_after c s0 s p songs' acts hin hpos htok (by intro hx; rw [hx] at hlen; simp at hlen) hplay hcalm h
    with h | ⟨k, name, len, rest, n1, n2⟩
  · exact Or.inl h
  · rw [Nat.mod_eq_of_lt (by omega)] at n2
    refine Or.inr ⟨k, name, len, rest, n1, n2, ?_⟩
    rw [← n2]
    subst hins
    split
    · rename_i hx
      have hc' : clip i s0.songs.length = p + 1 := by unfold clip at *; omega
      rw [hc', List.getElem?_append_right (by rw [List.length_take]; omega), List.length_take,
        Nat.min_eq_left (by omega)]
      simp
    · rename_i hx
      have hc' : p + 1 < clip i s0.songs.length := by unfold clip at *; omega
      rw [List.getElem?_append_left (by rw [List.length_take]; omega), List.getElem?_take_of_lt hc']

/-- C80 fails for `InsertSong` at or before the playing song, for every playlist, index and moment: the song that is
playing is announced again as the next song. -/
theorem C80_insert_before_repeats (c : Cfg α) (s0 s : St α) (p : Nat) (song : String) (i : Int)
    (songs' : List String) (acts : List Act)
    (hin : songPc s0.pc = true) (hpos : s0.position = p) (htok : s0.tokens = 0)
    (hcur : s0.songs[p]? = some s0.current)
    (hins : insertSong s0.songs song i = .ok songs') (hi : i ≤ p)
    (hplay : ∀ n ∈ songs', n ≠ "" ∧ (c.dec n).isSome)
    (hcalm : ∀ a ∈ acts, calm a) (h : run c s0 (.edit songs' :: acts) = some s) :
    s.news = s0.news ∨ ∃ k len rest, s.news = s0.news ++ (k, s0.current, len) :: rest := by
  have hp : p < s0.songs.length := (List.getElem?_eq_some_iff.1 hcur).1
  rw [Playlist.C05_insert] at hins
  injection hins with hins
  have hlen : songs'.length = s0.songs.length + 1 := by
    subst hins; simp only [List.length_append, List.length_take, List.length_cons, List.length_drop, clip]; omega
  have hc : clip i s0.songs.length ≤ p := by unfold clip; omega
  rcases next_after c s0 s p songs' acts hin hpos htok (by intro hx; rw [hx] at hlen; simp at hlen) hplay hcalm h
    with h | ⟨k, name, len, rest, n1, n2⟩
  · exact Or.inl h
  · rw [Nat.mod_eq_of_lt (by omega)] at n2
    have hx : songs'[p + 1]? = s0.songs[p]? := by
      subst hins
      rw [List.getElem?_append_right (by rw [List.length_take]; omega), List.length_take,
        Nat.min_eq_left (by omega), show p + 1 - clip i s0.songs.length = (p - clip i s0.songs.length) + 1 by omega,
        List.getElem?_cons_succ, List.getElem?_drop]
      congr 1; omega
    rw [hx, hcur] at n2
    injection n2 with n2
    subst n2
    exact Or.inr ⟨k, len, rest, n1⟩

/-- C80, the part that holds for `RemoveSong`: removing a song behind the playing one leaves the order intact: what is
announced next is the song that follows the playing one in the edited list (its first song if it is the last).
Missing from the full property: removal of the playing song or an earlier one (`C80_remove_before_skips`). -/
theorem C80_remove_behind_partial (c : Cfg α) (s0 s : St α) (p : Nat) (i : Int) (removed : String)
    (songs' : List String) (acts : List Act)
    (hin : songPc s0.pc = true) (hpos : s0.position = p) (htok : s0.tokens = 0) (hp : p + 1 < s0.songs.length)
    (hrem : removeSong s0.songs i = .ok (removed, songs')) (hi : (p : Int) < i)
    (hplay : ∀ n ∈ songs', n ≠ "" ∧ (c.dec n).isSome)
    (hcalm : ∀ a ∈ acts, calm a) (h : run c s0 (.edit songs' :: acts) = some s) :
    songs'[p]? = s0.songs[p]? ∧
    (s.news = s0.news ∨ ∃ k name len rest, s.news = s0.news ++ (k, name, len) :: rest ∧
      (if p + 1 = songs'.length then songs'[0]? else songs'[p + 1]?) = some name) := by
  have hne : s0.songs ≠ [] := by intro hx; rw [hx] at hp; simp at hp
  have hil : i ≠ s0.songs.length := by
    intro hx
    have := (Playlist.C05_remove_panics_iff s0.songs i).2 ⟨hne, hx⟩
    rw [this] at hrem; simp at hrem
  have hr := (Playlist.C05_remove_partial s0.songs i (Or.inr hil)).2 hne
  simp only at hr
  rw [hr] at hrem
  injection hrem with hrem
  obtain ⟨_, hrem⟩ := Prod.mk.inj hrem
  have hlen : songs'.length = s0.songs.length - 1 := by
    subst hrem; simp only [List.length_append, List.length_take, List.length_drop, clip]; omega
  have hc : p < clip i (s0.songs.length - 1) := by unfold clip; omega
  refine ⟨?_, ?_⟩
  · subst hrem
    rw [List.getElem?_append_left (by rw [List.length_take]; unfold clip at *; omega), List.getElem?_take_of_lt hc]
  rcases next_after c s0 s p songs' acts hin hpos htok (by intro hx; rw [hx] at hlen; simp at hlen; omega)
    hplay hcalm h with h | ⟨k, name, len, rest, n1, n2⟩
  · exact Or.inl h
  · refine Or.inr ⟨k, name, len, rest, n1, ?_⟩
    split
    · rename_i hx
      rw [hx, Nat.mod_self] at n2; exact n2
    · rw [Nat.mod_eq_of_lt (by omega)] at n2; exact n2

/-- C80 fails for `RemoveSong` of the playing song or an earlier one, for every playlist, index and moment: the song
that follows the playing one is skipped, the one after it (modulo the length) is announced next. -/
theorem C80_remove_before_skips (c : Cfg α) (s0 s : St α) (p : Nat) (i : Int) (removed : String)
    (songs' : List String) (acts : List Act)
    (hin : songPc s0.pc = true) (hpos : s0.position = p) (htok : s0.tokens = 0) (hp : p + 1 < s0.songs.length)
    (hrem : removeSong s0.songs i = .ok (removed, songs')) (hi : i ≤ p)
    (hplay : ∀ n ∈ songs', n ≠ "" ∧ (c.dec n).isSome)
    (hcalm : ∀ a ∈ acts, calm a) (h : run c s0 (.edit songs' :: acts) = some s) :
    songs'[p]? = s0.songs[p + 1]? ∧
    (s.news = s0.news ∨ ∃ k name len rest, s.news = s0.news ++ (k, name, len) :: rest ∧
      (if p + 2 = s0.songs.length then songs'[0]? else s0.songs[p + 2]?) = some name) := by
  have hne : s0.songs ≠ [] := by intro hx; rw [hx] at hp; simp at hp
  have hr := (Playlist.C05_remove_partial s0.songs i (Or.inr (by omega))).2 hne
  simp only at hr
  rw [hr] at hrem
  injection hrem with hrem
  obtain ⟨_, hrem⟩ := Prod.mk.inj hrem
  have hlen : songs'.length = s0.songs.length - 1 := by
    subst hrem; simp only [List.length_append, List.length_take, List.length_drop, clip]; omega
  have hc : clip i (s0.songs.length - 1) ≤ p := by unfold clip; omega
  have hget : ∀ q, p ≤ q → songs'[q]? = s0.songs[q + 1]? := by
    intro q hq
    subst hrem
    rw [List.getElem?_append_right (by rw [List.length_take]; omega), List.length_take,
      Nat.min_eq_left (by omega), List.getElem?_drop]
    congr 1; omega
  refine ⟨hget p (Nat.le_refl p), ?_⟩
  rcases next_after c s0 s p songs' acts hin hpos htok (by intro hx; rw [hx] at hlen; simp at hlen; omega)
    hplay hcalm h with h | ⟨k, name, len, rest, n1, n2⟩
  · exact Or.inl h
  · refine Or.inr ⟨k, name, len, rest, n1, ?_⟩
    split
    · rename_i hx
      rw [show p + 1 = songs'.length by omega, Nat.mod_self] at n2; exact n2
    · rw [Nat.mod_eq_of_lt (by omega), hget (p + 1) (by omega)] at n2; exact n2

/-- `AddSong` never disturbs the order: the song after the playing one stays the next, and the added song is next
exactly if the last song is playing. -/
theorem C80_add (c : Cfg α) (s0 s : St α) (p : Nat) (song : String) (acts : List Act)
    (hin : songPc s0.pc = true) (hpos : s0.position = p) (htok : s0.tokens = 0) (hp : p < s0.songs.length)
    (hplay : ∀ n ∈ Playlist.addSong s0.songs song, n ≠ "" ∧ (c.dec n).isSome)
    (hcalm : ∀ a ∈ acts, calm a) (h : run c s0 (.edit (Playlist.addSong s0.songs song) :: acts) = some s) :
    s.news = s0.news ∨ ∃ k name len rest, s.news = s0.news ++ (k, name, len) :: rest ∧
      some name = if p + 1 = s0.songs.length then some song else s0.songs[p + 1]? := by
  rcases next_after c s0 s p _ acts hin hpos htok (by simp [Playlist.addSong]) hplay hcalm h
    with h | ⟨k, name, len, rest, n1, n2⟩
  · exact Or.inl h
  · refine Or.inr ⟨k, name, len, rest, n1, ?_⟩
    rw [← n2, Nat.mod_eq_of_lt (by simp [Playlist.addSong]; omega)]
    unfold Playlist.addSong
    split
    · rename_i hx
      rw [List.getElem?_append_right (by omega)]; simp [hx]
    · rw [List.getElem?_append_left (by omega)]

/-! ### Concrete cases -/

/-- "b" of "a", "b", "c" has just started. -/
def midB : List Act := .setPlaying true :: List.replicate 12 .loop

example : (∀ a ∈ midB, calm a) := by
  intro a ha; simp [midB] at ha; rcases ha with rfl | rfl <;> trivial

/-- Inserting before it plays "b" twice; inserting behind it plays the inserted song next; removing "a" or "b" skips
"c"; removing "c" wraps to "a". -/
example : ∃ s0, run tinyCfg (init ["a", "b", "c"]) midB = some s0 ∧ songPc s0.pc = true ∧ s0.position = (1 : Nat) ∧
    s0.tokens = 0 ∧ s0.songs[1]? = some s0.current ∧
    insertSong s0.songs "x" 0 = .ok ["x", "a", "b", "c"] ∧
    (run tinyCfg s0 (.edit ["x", "a", "b", "c"] :: List.replicate 12 .loop)).map (·.news.map (·.2.1)) =
      some ["a", "b", "b"] ∧
    insertSong s0.songs "x" 2 = .ok ["a", "b", "x", "c"] ∧
    (run tinyCfg s0 (.edit ["a", "b", "x", "c"] :: List.replicate 12 .loop)).map (·.news.map (·.2.1)) =
      some ["a", "b", "x"] ∧
    removeSong s0.songs 1 = .ok ("b", ["a", "c"]) ∧
    (run tinyCfg s0 (.edit ["a", "c"] :: List.replicate 12 .loop)).map (·.news.map (·.2.1)) =
      some ["a", "b", "a"] ∧
    removeSong s0.songs 2 = .ok ("c", ["a", "b"]) ∧
    (run tinyCfg s0 (.edit ["a", "b"] :: List.replicate 12 .loop)).map (·.news.map (·.2.1)) =
      some ["a", "b", "a"] := by
  refine ⟨_, rfl, rfl, rfl, rfl, rfl, ?_⟩
  decide

end MS.StreamLoop
