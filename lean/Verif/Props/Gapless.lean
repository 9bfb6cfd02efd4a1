import Verif.Props.Kept
/-!
# C137: nothing comes between two samples of music; songs without breaks

A player never skips, repeats or delays within music: the slot after a sample of music holds the next sample, if that is music too. With
`--song-break-size=0` this makes songs follow each other without a gap.
-/
set_option linter.unusedSimpArgs false
set_option linter.unusedVariables false
namespace MS.Gapless
open MS.Streamer MS.InSync MS.WrongRate
open MS.StreamMusic (chunkTime messages)
open MS.OnTime (Steady)

variable {α : Type}

/-- C137, the player. Whatever the rates, whatever part of the stream is in the buffer and whenever the calls come: where a sample of the stream is
written and the next sample of the stream is no silence, the next slot holds that one. And it stays on time: as `C135_order` says, here with the
slot and the time of one and the same sequence. -/
theorem C137_next (rate own len size : Nat) (start : Int) (val : Nat → Option α) (a n : Nat) (nows : List Int)
    (out : List (Option α)) (sy' : Bool) (rest : List (TS α))
    (h : playLoop own len nows true (part (stamp start size rate own) val a n) = some (out, sy', rest)) :
    ∃ ids : List (Option Nat), ids.length = len * nows.length ∧ out = ids.map (fun x => x.bind val) ∧
      (∀ p p' k k' : Nat, p < p' → ids[p]? = some (some k) → ids[p']? = some (some k') → k < k') ∧
      (∀ p k : Nat, ids[p]? = some (some k) → a ≤ k ∧ k < a + n ∧ (val k).isSome) ∧
      ∀ p k : Nat, ids[p]? = some (some k) → p + 1 < len * nows.length → (val (k + 1)).isSome → ids[p + 1]? = some (some (k + 1)) := by
  obtain ⟨ids, h1, h2, h3, h4, -, h6⟩ := loop_trace (G := gap size rate own) (gap_nonneg _ _ _) (stamp_step start size rate own) (nows := nows)
    nows 0 a n true out sy' rest (by simp) (by simp) h
  exact ⟨ids, h1, h2, h4, fun (p k : Nat) hp => ⟨(h3 p k hp).1, (h3 p k hp).2.1, (h3 p k hp).2.2.1⟩, h6⟩

/-! ## The server -/

open MS.StreamLoop (Cfg)
open MS.PlaylistRun MS.PauseHeard
open MS.Pipeline (received heard)
open MS.OnTime (heardAt)

/-- Nobody pauses, and the list of songs is not emptied. -/
def Goes : StreamLoop.Act → Prop
  | .setPlaying b => b = true
  | .edit songs => songs ≠ [] ∧ "" ∉ songs
  | _ => True

/-- Music is playing. -/
structure Music (P : α → Prop) (s : StreamLoop.St α) : Prop where
  playing : s.playing = true
  songs : s.songs ≠ [] ∧ "" ∉ s.songs
  name : ∀ pos, s.pc ≠ .store pos ""
  rem : ∀ l, rest s.pc = some l → ∀ x ∈ l, P x

theorem goGet_mem {β : Type} {l : List β} {i : Int} {v : β} (h : Playlist.goGet l i = .ok v) : v ∈ l := by
  unfold Playlist.goGet at h
  split at h
  · cases h
  · split at h
    · rename_i hv; cases h; exact List.mem_of_getElem? hv
    · cases h

theorem loop_music {c : Cfg α} {P : α → Prop} (hb : c.brk = 0) (hd : ∀ name l, c.dec name = some l → ∀ x ∈ l, P x)
    {s s' : StreamLoop.St α} (hm : Music P s) (h : StreamLoop.loopStep c s = some s') :
    Music P s' ∧ ∃ t : List α, s'.out = s.out ++ t.map some ∧ ∀ x ∈ t, P x := by
  obtain ⟨h1, h2, h3, h4⟩ := hm
  unfold StreamLoop.loopStep at h
  split at h
  · rename_i hpc
    rw [if_neg (by simp [h2.1])] at h
    simp only at h
    split at h
    · rename_i song hg
      cases h
      refine ⟨⟨h1, h2, ?_, by simp [rest]⟩, [], by simp, by simp⟩
      intro pos hp
      simp only [StreamLoop.Pc.store.injEq] at hp
      exact h2.2 (hp.2 ▸ goGet_mem hg)
    · cases h
      exact ⟨⟨h1, h2, by simp, by simp [rest]⟩, [], by simp, by simp⟩
  · rename_i pos song hpc
    have : song ≠ "" := fun e => h3 pos (by rw [hpc, e])
    rw [if_neg this] at h
    cases h
    exact ⟨⟨h1, h2, by simp, by simp [rest]⟩, [], by simp, by simp⟩
  · rename_i song hpc
    split at h
    · cases h
      exact ⟨⟨h1, h2, by simp, by simp [rest]⟩, [], by simp, by simp⟩
    · rename_i l hl
      cases h
      exact ⟨⟨h1, h2, by simp, by simpa [rest] using hd _ _ hl⟩, [], by simp, by simp⟩
  · rename_i rem hpc
    rw [hpc] at h4
    split at h
    · cases h
      exact ⟨⟨h1, h2, by simp, by simpa [rest] using h4⟩, [], by simp, by simp⟩
    · cases h
      exact ⟨⟨h1, h2, by simp, by simpa [rest] using h4⟩, [], by simp, by simp⟩
  · rename_i rem hpc
    rw [hpc] at h4
    cases h
    exact ⟨⟨h1, h2, by simp, by simpa [rest] using h4⟩, [], by simp, by simp⟩
  · rename_i rem hpc
    rw [hpc] at h4
    cases h
    exact ⟨⟨h1, h2, by simp, by simpa [rest] using h4⟩, [], by simp, by simp⟩
  · rename_i rem hpc
    rw [hpc] at h4
    have h4' : ∀ x ∈ rem, P x := by simpa [rest] using h4
    rw [if_pos h1] at h
    cases h
    refine ⟨⟨h1, h2, by simp, ?_⟩, rem.take (min StreamLoop.bufSize rem.length), rfl, fun x hx => h4' x (List.mem_of_mem_take hx)⟩
    intro l hl
    simp only [rest, Option.some.injEq] at hl
    subst hl
    exact fun x hx => h4' x (List.mem_of_mem_drop hx)
  · rename_i rem n ok hpc
    rw [hpc] at h4
    split at h
    · cases h
      exact ⟨⟨h1, h2, by simp, by simp [rest]⟩, [], by simp, by simp⟩
    · split at h
      · cases h
        exact ⟨⟨h1, h2, by simp, by simp [rest]⟩, [], by simp, by simp⟩
      · cases h
        exact ⟨⟨h1, h2, by simp, by simpa [rest] using h4⟩, [], by simp, by simp⟩
  · cases h
    exact ⟨⟨h1, h2, by simp, by simp [rest]⟩, [], by simp, by simp⟩
  · rename_i skip v hpc
    cases h
    refine ⟨⟨h1, h2, ?_, ?_⟩, [], by simp, by simp⟩
    · intro pos; cases skip <;> simp
    · intro l; cases skip <;> simp [rest]
  · cases h
    rw [hb]
    exact ⟨⟨h1, h2, by simp, by simp [rest]⟩, [], by simp, by simp⟩
  · cases h

/-- While music is playing, with no break between songs, only music is streamed. -/
theorem run_music {c : Cfg α} {P : α → Prop} (hb : c.brk = 0) (hd : ∀ name l, c.dec name = some l → ∀ x ∈ l, P x) (acts : List StreamLoop.Act) :
    ∀ {s s' : StreamLoop.St α}, Music P s → (∀ a ∈ acts, Goes a) → StreamLoop.run c s acts = some s' →
    ∃ t : List α, s'.out = s.out ++ t.map some ∧ ∀ x ∈ t, P x := by
  induction acts with
  | nil =>
    intro s s' _ _ h
    simp only [StreamLoop.run, Option.some.injEq] at h
    exact ⟨[], by simp [h], by simp⟩
  | cons a acts ih =>
    intro s s' hm hg h
    simp only [StreamLoop.run] at h
    split at h
    · rename_i s1 hs1
      have key : Music P s1 ∧ ∃ t : List α, s1.out = s.out ++ t.map some ∧ ∀ x ∈ t, P x := by
        have hga := hg a (by simp)
        unfold StreamLoop.step at hs1
        split at hs1
        · cases hs1
        · split at hs1
          · exact loop_music hb hd hm hs1
          · cases hs1
            exact ⟨⟨hm.playing, hm.songs, hm.name, hm.rem⟩, [], by simp, by simp⟩
          · split at hs1
            · cases hs1
              exact ⟨⟨hm.playing, hm.songs, hm.name, hm.rem⟩, [], by simp, by simp⟩
            · cases hs1
          · cases hs1
            exact ⟨⟨hga, hm.songs, hm.name, hm.rem⟩, [], by simp, by simp⟩
          · cases hs1
            exact ⟨⟨hm.playing, hga, hm.name, hm.rem⟩, [], by simp, by simp⟩
      obtain ⟨k1, t1, k2, k3⟩ := key
      obtain ⟨t2, k4, k5⟩ := ih k1 (fun a ha => hg a (by simp [ha])) h
      refine ⟨t1 ++ t2, by rw [k4, k2]; simp, ?_⟩
      intro x hx
      rcases List.mem_append.1 hx with hx | hx
      · exact k3 x hx
      · exact k5 x hx
    · cases h

variable {β : Type}

/-- Nobody puts a song without a name into the playlist. -/
def Named : StreamLoop.Act → Prop
  | .edit songs => "" ∉ songs
  | _ => True

/-- What holds at every moment then. -/
structure Fit (P : α → Prop) (s : StreamLoop.St α) : Prop where
  songs : "" ∉ s.songs
  name : ∀ pos, s.pc ≠ .store pos ""
  rem : ∀ l, rest s.pc = some l → ∀ x ∈ l, P x

theorem loop_fit {c : Cfg α} {P : α → Prop} (hd : ∀ name l, c.dec name = some l → ∀ x ∈ l, P x)
    {s s' : StreamLoop.St α} (hm : Fit P s) (h : StreamLoop.loopStep c s = some s') : Fit P s' := by
  obtain ⟨h2, h3, h4⟩ := hm
  unfold StreamLoop.loopStep at h
  split at h
  · rename_i hpc
    split at h
    · cases h; exact ⟨h2, by simp [hpc], by simp [hpc, rest]⟩
    · simp only at h
      split at h
      · rename_i song hg
        cases h
        refine ⟨h2, ?_, by simp [rest]⟩
        intro pos hp
        simp only [StreamLoop.Pc.store.injEq] at hp
        exact h2 (hp.2 ▸ goGet_mem hg)
      · cases h
        exact ⟨h2, by simp, by simp [rest]⟩
  · split at h <;> cases h <;> exact ⟨h2, by simp, by simp [rest]⟩
  · rename_i song hpc
    split at h
    · cases h
      exact ⟨h2, by simp, by simp [rest]⟩
    · rename_i l hl
      cases h
      exact ⟨h2, by simp, by simpa [rest] using hd _ _ hl⟩
  · rename_i rem hpc
    rw [hpc] at h4
    split at h <;> cases h <;> exact ⟨h2, by simp, by simpa [rest] using h4⟩
  · rename_i rem hpc
    rw [hpc] at h4
    cases h
    exact ⟨h2, by simp, by simpa [rest] using h4⟩
  · rename_i rem hpc
    rw [hpc] at h4
    cases h
    exact ⟨h2, by simp, by simpa [rest] using h4⟩
  · rename_i rem hpc
    rw [hpc] at h4
    have h4' : ∀ x ∈ rem, P x := by simpa [rest] using h4
    split at h
    · cases h
      refine ⟨h2, by simp, ?_⟩
      intro l hl
      simp only [rest, Option.some.injEq] at hl
      subst hl
      exact fun x hx => h4' x (List.mem_of_mem_drop hx)
    · cases h
      exact ⟨h2, by simp, by simpa [rest] using h4'⟩
  · rename_i rem n ok hpc
    rw [hpc] at h4
    split at h
    · cases h
      exact ⟨h2, by simp, by simp [rest]⟩
    · split at h <;> cases h
      · exact ⟨h2, by simp, by simp [rest]⟩
      · exact ⟨h2, by simp, by simpa [rest] using h4⟩
  · cases h
    exact ⟨h2, by simp, by simp [rest]⟩
  · rename_i skip v hpc
    cases h
    refine ⟨h2, ?_, ?_⟩
    · intro pos; cases skip <;> simp
    · intro l; cases skip <;> simp [rest]
  · cases h
    exact ⟨h2, by simp, by simp [rest]⟩
  · cases h

theorem run_fit {c : Cfg α} {P : α → Prop} (hd : ∀ name l, c.dec name = some l → ∀ x ∈ l, P x) (acts : List StreamLoop.Act) :
    ∀ {s s' : StreamLoop.St α}, Fit P s → (∀ a ∈ acts, Named a) → StreamLoop.run c s acts = some s' → Fit P s' := by
  induction acts with
  | nil =>
    intro s s' hm _ h
    simp only [StreamLoop.run, Option.some.injEq] at h
    exact h ▸ hm
  | cons a acts ih =>
    intro s s' hm hg h
    simp only [StreamLoop.run] at h
    split at h
    · rename_i s1 hs1
      refine ih ?_ (fun a ha => hg a (by simp [ha])) h
      have hga := hg a (by simp)
      unfold StreamLoop.step at hs1
      split at hs1
      · cases hs1
      · split at hs1
        · exact loop_fit hd hm hs1
        · cases hs1; exact ⟨hm.songs, hm.name, hm.rem⟩
        · split at hs1
          · cases hs1; exact ⟨hm.songs, hm.name, hm.rem⟩
          · cases hs1
        · cases hs1; exact ⟨hm.songs, hm.name, hm.rem⟩
        · cases hs1; exact ⟨hga, hm.name, hm.rem⟩
    · cases h

theorem all_of_commands {Q : StreamLoop.Act → Prop} (hq : Q .loop) {as : List Act} {bs : List StreamLoop.Act}
    (e : bs.filterMap commandOf = as.filterMap command) (h : ∀ x ∈ as.filterMap command, Q x) : ∀ x ∈ bs, Q x := by
  intro x hx
  cases x with
  | loop => exact hq
  | jumpWrite p => exact h _ (e ▸ List.mem_filterMap.2 ⟨_, hx, rfl⟩)
  | jumpToken => exact h _ (e ▸ List.mem_filterMap.2 ⟨_, hx, rfl⟩)
  | setPlaying b => exact h _ (e ▸ List.mem_filterMap.2 ⟨_, hx, rfl⟩)
  | edit l => exact h _ (e ▸ List.mem_filterMap.2 ⟨_, hx, rfl⟩)

variable {β : Type}

/-- While music is playing, with no break between songs, every sample streamed is music for a player. -/
theorem streams_music (c : Cfg (Option β × Option β)) (hb : c.brk = 0) (hd : ∀ name l, c.dec name = some l → ∀ x ∈ l, x.1.isSome)
    (cap : Nat) (songs : List String) (as as' : List Act) (s s' : St (Option β))
    (h : run none c (init cap songs) as = some s) (h' : run none c s as' = some s')
    (hn : "" ∉ songs) (hnamed : ∀ x ∈ as.filterMap command, Named x)
    (hplay : s.pl.playing = true) (hsongs : s.pl.songs ≠ []) (hgo : ∀ x ∈ as'.filterMap command, Goes x) :
    (stream s).length ≤ (stream s').length ∧
    ∀ k, (stream s).length ≤ k → k < (stream s').length → (heardAt s' k).isSome := by
  obtain ⟨i1, bs, b1, b2⟩ := run_sim as (inv_init none cap songs) h
  obtain ⟨i2, bs', b3, b4⟩ := run_sim as' i1 h'
  have hf := run_fit (P := fun x : Option β × Option β => x.1.isSome = true) hd bs (s := whole (init cap songs))
    ⟨hn, by simp [whole, init, StreamLoop.init], by simp [whole, init, StreamLoop.init, rest]⟩
    (all_of_commands (Q := Named) trivial b2 hnamed) b1
  obtain ⟨t, t1, t2⟩ := run_music hb hd bs' (s := whole s) ⟨hplay, ⟨hsongs, hf.songs⟩, hf.name, hf.rem⟩
    (all_of_commands (Q := Goes) trivial b4 hgo) b3
  have e : stream s' = stream s ++ t.map some := t1
  refine ⟨by rw [e]; simp, ?_⟩
  intro k k1 k2
  rw [e, List.length_append, List.length_map] at k2
  have hx := t2 (t[k - (stream s).length]'(by omega)) (List.getElem_mem _)
  unfold heardAt
  rw [e, List.getElem?_append_right k1, List.getElem?_map, List.getElem?_eq_getElem (by omega)]
  generalize t[k - (stream s).length]'(by omega) = x at hx
  obtain ⟨l, r⟩ := x
  cases l with
  | none => cases hx
  | some l => rfl

/-- C137, songs without breaks. The break size is 0 and all songs decode to music. At some moment (`s`) the server plays and the playlist is not
empty; then nobody pauses or empties the playlist, but songs are queued, removed and jumped to at will (`as'`). A player at any rate handles messages
of this stream. From the first sample on it plays of what is streamed after that moment, every slot holds the next sample of the stream: the songs
follow each other without a gap. -/
theorem C137_songs (c : Cfg (Option β × Option β)) (hb : c.brk = 0) (hd : ∀ name l, c.dec name = some l → ∀ x ∈ l, x.1.isSome)
    (cap : Nat) (songs : List String) (as as' : List Act) (s s' : St (Option β)) (start delay : Int) (size rate own len a n : Nat)
    (h : run none c (init cap songs) as = some s) (h' : run none c s as' = some s') (hz : Asks size as) (hz' : Asks size as')
    (hn : "" ∉ songs) (hnamed : ∀ x ∈ as.filterMap command, Named x)
    (hplay : s.pl.playing = true) (hsongs : s.pl.songs ≠ []) (hgo : ∀ x ∈ as'.filterMap command, Goes x)
    (nows : List Int) (out : List (Option (β × Option β)))
    (hplayer : Player start delay size rate own s'.chans.chunks a n len nows out) :
    ∃ ids : List (Option Nat), ids.length = len * nows.length ∧ out = ids.map (fun x => x.bind (heardAt s')) ∧
      (∀ p p' k k' : Nat, p < p' → ids[p]? = some (some k) → ids[p']? = some (some k') → k < k') ∧
      ∀ p k : Nat, ids[p]? = some (some k) → (stream s).length ≤ k → ∀ j, p + j < len * nows.length → k + j < (stream s').length →
        ids[p + j]? = some (some (k + j)) := by
  have h1 := (run_sim as (inv_init none cap songs) h).1
  have h2 := (run_sim as' h1 h').1
  have z1 := sized_run as (s := init cap songs) ⟨by simp [init, Fill.init], by simp [init, Fill.init]⟩ hz h
  have z2 := sized_run as' z1 hz' h'
  obtain ⟨-, hmusic⟩ := streams_music c hb hd cap songs as as' s s' h h' hn hnamed hplay hsongs hgo
  obtain ⟨n', sy, rest, -, hpl⟩ := player_buffer h2 z2 hplayer
  obtain ⟨ids, i1, i2, i3, -, i5⟩ := C137_next rate own len size (start + delay) (heardAt s') _ _ nows out sy rest hpl
  refine ⟨ids, i1, i2, i3, ?_⟩
  intro p k hp hk j
  induction j with
  | zero => intro _ _; exact hp
  | succ j ih =>
    intro g1 g2
    exact i5 (p + j) (k + j) (ih (by omega) (by omega)) g1 (hmusic _ (by omega) g2)

/-- Two songs of two samples, no break. -/
def exSongs : Cfg (Option Nat × Option Nat) :=
  { dec := fun x => if x = "a" then some [(some 1, some 2), (some 3, some 4)]
      else if x = "b" then some [(some 5, some 6), (some 7, some 8)] else none, brk := 0 }

/-- Both are streamed and read in two chunks. -/
def exActs : List Act :=
  List.replicate 22 .loop ++ [.fill 2, .readLow, .readHigh, .readLow, .readHigh, .ret, .fill 2, .readLow, .readHigh, .readLow, .readHigh, .ret]

def exChunks : List (Nat × List (Option Nat) × List (Option Nat)) :=
  [(0, [some 1, some 3], [some 2, some 4]), (2, [some 5, some 7], [some 6, some 8])]

set_option synthInstance.maxSize 2000 in
/-- A player handles both chunks and is called for a sample at seconds 1, 2 and 3. -/
theorem ex_player : Player 0 0 2 1 1 exChunks 0 2 1 [1000000000, 2000000000, 3000000000] [some (3, some 4), some (5, some 6), some (7, some 8)] := by
  have h : (playLoop 1 1 [1000000000, 2000000000, 3000000000] true
      (part (stamp 0 2 1 1) (fun i => if i < 4 then some (2 * i + 1, some (2 * i + 2)) else none) 0 4)) =
      (some ([some (3, some 4), some (5, some 6), some (7, some 8)], false, []) :
        Option (List (Option (Nat × Option Nat)) × Bool × List (TS (Nat × Option Nat)))) := by
    decide +kernel
  refine ⟨⟨[.queue ⟨0, [some (1, some 2), some (3, some 4)]⟩, .queue ⟨2000000000, [some (5, some 6), some (7, some 8)]⟩] ++
      List.replicate 12 .reader, _, part (stamp 0 2 1 1) (fun i => if i < 4 then some (2 * i + 1, some (2 * i + 2)) else none) 0 4, rfl,
      by decide, rfl, ⟨[], rfl⟩, false, [], h⟩⟩

/-- `C137_songs` applies: the first sample of song "b" follows the last one of song "a" in the next slot. -/
theorem ex_songs : ∃ s s', run none exSongs (init 4 ["a", "b"]) [.setPlaying true] = some s ∧ run none exSongs s exActs = some s' ∧
    s'.chans.chunks = exChunks ∧ s'.pl.news = [(0, "a", 2), (2, "b", 2)] ∧
    ∃ ids : List (Option Nat), ids.length = 1 * 3 ∧ [some (3, some 4), some (5, some 6), some (7, some 8)] = ids.map (fun x => x.bind (heardAt s')) ∧
      (∀ p p' k k' : Nat, p < p' → ids[p]? = some (some k) → ids[p']? = some (some k') → k < k') ∧
      ∀ p k : Nat, ids[p]? = some (some k) → (stream s).length ≤ k → ∀ j, p + j < 1 * 3 → k + j < (stream s').length →
        ids[p + j]? = some (some (k + j)) := by
  refine ⟨_, _, rfl, rfl, rfl, rfl, ?_⟩
  refine C137_songs exSongs rfl ?_ 4 ["a", "b"] [.setPlaying true] exActs _ _ 0 0 2 1 1 1 0 2 rfl rfl (by intro n h; simp at h) (by intro n h; simp [exActs] at h; exact h) (by decide)
    (by simp [command, Named]) rfl (by decide) (by simp [exActs, command, List.filterMap_replicate_of_some, List.filterMap_append]) _ _ ex_player
  intro name l hl x hx
  simp only [exSongs] at hl
  split at hl
  · cases hl; revert x; decide
  · split at hl
    · cases hl; revert x; decide
    · cases hl

end MS.Gapless
