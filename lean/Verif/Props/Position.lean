import Verif.Model.StreamLoop
/-!
# Property C105: `Pos` and `CurrentSong` name the song that is playing
-/
namespace MS.Position
open MS.StreamLoop

variable {α : Type}

/-- A song is being pushed. -/
def Streaming (s : St α) : Prop :=
  match s.pc with
  | .h1 _ | .h2 _ | .h3 _ | .body _ | .chk _ _ _ => True
  | _ => False

/-- The song at position `i` of the list. -/
def At (songs : List String) (i : Int) (song : String) : Prop := 0 ≤ i ∧ songs[i.toNat]? = some song

/-- The schedule neither edits the playlist nor jumps. -/
def Quiet (as : List Act) : Prop := ∀ a ∈ as, (∀ l, a ≠ .edit l) ∧ (∀ p, a ≠ .jumpWrite p)

theorem goGet_ok {l : List String} {i : Int} {x : String} (h : Playlist.goGet l i = .ok x) : At l i x := by
  unfold Playlist.goGet at h
  split at h
  · simp at h
  · split at h
    · next v hv =>
      simp only [Res.ok.injEq] at h
      rw [← h]; exact ⟨by omega, hv⟩
    · simp at h

theorem at_lt {l : List String} {i : Int} {x : String} (h : At l i x) : i < l.length := by
  obtain ⟨h0, h1⟩ := h
  have := (List.getElem?_eq_some_iff.mp h1).1
  omega

theorem at_pos {s : St α} {x : String} (h : At s.songs s.position x) : pos s = s.position := by
  have h1 := at_lt h
  have h0 := h.1
  unfold pos
  rw [if_neg (by omega)]
  exact Int.tmod_eq_of_lt h0 h1

/-- What the position is while nothing but the loop moves it. -/
def PosInv (s : St α) : Prop :=
  match s.pc with
  | .store p song => At s.songs p song
  | .opening song => At s.songs s.position song
  | .h1 _ | .h2 _ | .h3 _ | .body _ | .chk _ _ _ => At s.songs s.position s.current
  | _ => True

theorem posInv_step (c : Cfg α) (s s' : St α) (a : Act) (hq : (∀ l, a ≠ .edit l) ∧ (∀ p, a ≠ .jumpWrite p))
    (h : PosInv s) (hs : step c s a = some s') : PosInv s' := by
  unfold step at hs
  split at hs
  · simp at hs
  · cases a with
    | edit l => exact absurd rfl (hq.1 l)
    | jumpWrite p => exact absurd rfl (hq.2 p)
    | setPlaying b => simp only [Option.some.injEq] at hs; subst hs; exact h
    | jumpToken =>
      simp only at hs
      split at hs
      · simp only [Option.some.injEq] at hs; subst hs; exact h
      · simp at hs
    | loop =>
      simp only [loopStep] at hs
      unfold PosInv at h ⊢
      split at hs
      · split at hs
        · simp only [Option.some.injEq] at hs; subst hs
          next he _ => simp only [he]
        · split at hs
          · next hg => simp only [Option.some.injEq] at hs; subst hs; exact goGet_ok hg
          · simp only [Option.some.injEq] at hs; subst hs; trivial
      · next he =>
        rw [he] at h
        split at hs <;> simp only [Option.some.injEq] at hs <;> subst hs
        · trivial
        · exact h
      · next he =>
        rw [he] at h
        split at hs <;> simp only [Option.some.injEq] at hs <;> subst hs
        · trivial
        · exact h
      · next he =>
        rw [he] at h
        split at hs <;> simp only [Option.some.injEq] at hs <;> subst hs <;> exact h
      · next he => rw [he] at h; simp only [Option.some.injEq] at hs; subst hs; exact h
      · next he => rw [he] at h; simp only [Option.some.injEq] at hs; subst hs; exact h
      · next he =>
        rw [he] at h
        split at hs <;> simp only [Option.some.injEq] at hs <;> subst hs <;> exact h
      · next he =>
        rw [he] at h
        split at hs
        · simp only [Option.some.injEq] at hs; subst hs; trivial
        · split at hs <;> simp only [Option.some.injEq] at hs <;> subst hs
          · trivial
          · exact h
      · simp only [Option.some.injEq] at hs; subst hs; trivial
      · next skip v he =>
        simp only [Option.some.injEq] at hs; subst hs
        cases skip <;> trivial
      · simp only [Option.some.injEq] at hs; subst hs; trivial
      · simp at hs

theorem posInv_run (c : Cfg α) (as : List Act) : ∀ s s' : St α, Quiet as → PosInv s → run c s as = some s' → PosInv s' := by
  induction as with
  | nil => intro s s' _ h hr; simp only [run, Option.some.injEq] at hr; rw [← hr]; exact h
  | cons a as ih =>
    intro s s' hq h hr
    simp only [run] at hr
    split at hr
    · next s1 he =>
      exact ih s1 s' (fun b hb => hq b (.tail _ hb)) (posInv_step c s s1 a (hq a (.head _)) h he) hr
    · simp at hr

/-- C105, `Pos`, where it holds: if since the loop last asked for the next song (`s1`, reached in any way) the playlist has
not been edited and no jump has been issued, then while a song is streamed `Pos` is its position in the playlist. -/
theorem C105_pos_partial (c : Cfg α) (songs0 : List String) (as bs : List Act) (s1 s : St α)
    (_h1 : run c (init songs0) as = some s1) (htop : s1.pc = .top) (h2 : run c s1 bs = some s) (hq : Quiet bs)
    (hst : Streaming s) : At s.songs (pos s) s.current := by
  have hi : PosInv s := posInv_run c bs s1 s hq (by unfold PosInv; rw [htop]; trivial) h2
  have hat : At s.songs s.position s.current := by
    unfold Streaming at hst
    unfold PosInv at hi
    split at hst <;> next he => simp_all
  rw [at_pos hat]; exact hat

/-- The last announced song is the one named `current`. -/
def CurInv (s : St α) : Prop := Streaming s → ∃ pre i n, s.news = pre ++ [(i, s.current, n)]

theorem curInv_step (c : Cfg α) (s s' : St α) (a : Act) (h : CurInv s) (hs : step c s a = some s') : CurInv s' := by
  unfold step at hs
  split at hs
  · simp at hs
  · cases a with
    | edit l => simp only [Option.some.injEq] at hs; subst hs; exact h
    | jumpWrite p => simp only [Option.some.injEq] at hs; subst hs; exact h
    | setPlaying b => simp only [Option.some.injEq] at hs; subst hs; exact h
    | jumpToken =>
      simp only at hs
      split at hs
      · simp only [Option.some.injEq] at hs; subst hs; exact h
      · simp at hs
    | loop =>
      simp only [loopStep] at hs
      have keep : Streaming s → ∀ t : St α, t.news = s.news → t.current = s.current → CurInv t := by
        intro hst t e1 e2 _
        rw [e1, e2]; exact h hst
      split at hs
      · next he =>
        intro hst
        split at hs
        · simp only [Option.some.injEq] at hs; subst hs
          unfold Streaming at hst; simp [he] at hst
        · split at hs <;> simp only [Option.some.injEq] at hs <;> subst hs <;> simp [Streaming] at hst
      · intro hst
        split at hs <;> simp only [Option.some.injEq] at hs <;> subst hs <;> simp [Streaming] at hst
      · next song he =>
        intro hst
        split at hs <;> simp only [Option.some.injEq] at hs <;> subst hs
        · simp [Streaming] at hst
        · exact ⟨_, _, _, rfl⟩
      · next he =>
        split at hs <;> simp only [Option.some.injEq] at hs <;> subst hs <;>
          exact keep (by simp [Streaming, he]) _ rfl rfl
      · next he => simp only [Option.some.injEq] at hs; subst hs; exact keep (by simp [Streaming, he]) _ rfl rfl
      · next he => simp only [Option.some.injEq] at hs; subst hs; exact keep (by simp [Streaming, he]) _ rfl rfl
      · next he =>
        split at hs <;> simp only [Option.some.injEq] at hs <;> subst hs <;>
          exact keep (by simp [Streaming, he]) _ rfl rfl
      · next he =>
        split at hs
        · simp only [Option.some.injEq] at hs; subst hs; exact keep (by simp [Streaming, he]) _ rfl rfl
        · split at hs <;> simp only [Option.some.injEq] at hs <;> subst hs <;>
            exact keep (by simp [Streaming, he]) _ rfl rfl
      · intro hst; simp only [Option.some.injEq] at hs; subst hs; simp [Streaming] at hst
      · next skip v he =>
        intro hst; simp only [Option.some.injEq] at hs; subst hs
        cases skip <;> simp [Streaming] at hst
      · intro hst; simp only [Option.some.injEq] at hs; subst hs; simp [Streaming] at hst
      · simp at hs

/-- C105, `CurrentSong`, under every schedule, with edits and jumps: while a song is streamed it is the one announced
last. -/
theorem C105_current (c : Cfg α) (songs0 : List String) (as : List Act) (s : St α) (h : run c (init songs0) as = some s)
    (hst : Streaming s) : (s.news.getLast?).map (·.2.1) = some s.current := by
  have key : ∀ (as : List Act) (s0 : St α), CurInv s0 → ∀ s, run c s0 as = some s → CurInv s := by
    intro as
    induction as with
    | nil => intro s0 h0 s hr; simp only [run, Option.some.injEq] at hr; rw [← hr]; exact h0
    | cons a as ih =>
      intro s0 h0 s hr
      simp only [run] at hr
      split at hr
      · next s1 he => exact ih s1 (curInv_step c s0 s1 a h0 he) s hr
      · simp at hr
  obtain ⟨pre, i, n, e⟩ := key as (init songs0) (by intro hst; simp [Streaming, init] at hst) s h hst
  rw [e]; simp

/-- C105, where `Pos` fails: another song is inserted before the first one, while that plays. -/
theorem C105_pos_after_insert (c : Cfg α) (s : St α) (hst : Streaming s) (hp : s.position = 0) (x : String)
    (hx : x ≠ s.current) :
    ∃ s', step c s (.edit (x :: s.songs)) = some s' ∧ Streaming s' ∧ s'.current = s.current ∧
      At s'.songs (pos s') x ∧ ¬ At s'.songs (pos s') s'.current := by
  have e : step c s (.edit (x :: s.songs)) = some { s with songs := x :: s.songs } := by
    unfold step
    split
    · next h => unfold Streaming at hst; simp [h] at hst
    · rfl
  have hz : pos { s with songs := x :: s.songs } = 0 := by
    unfold pos
    simp [hp]
  refine ⟨_, e, hst, rfl, ?_, ?_⟩
  · rw [hz]; exact ⟨by omega, rfl⟩
  · rw [hz]
    rintro ⟨_, h⟩
    simp only [Int.toNat_zero, List.getElem?_cons_zero, Option.some.injEq] at h
    exact hx h

/-- C105, where `Pos` fails: after a jump to another song, until the loop notices it. -/
theorem C105_pos_after_jump (c : Cfg α) (s : St α) (hst : Streaming s) (p : Nat) (x : String) (hx : s.songs[p]? = some x)
    (hne : x ≠ s.current) :
    ∃ s', step c s (.jumpWrite p) = some s' ∧ Streaming s' ∧ s'.current = s.current ∧ pos s' = p ∧
      ¬ At s'.songs (pos s') s'.current := by
  have e : step c s (.jumpWrite p) = some { s with position := p, inflight := s.inflight + 1 } := by
    unfold step
    split
    · next h => unfold Streaming at hst; simp [h] at hst
    · rfl
  have hat : At s.songs p x := ⟨by omega, hx⟩
  have hz : pos { s with position := (p : Int), inflight := s.inflight + 1 } = p :=
    at_pos (s := { s with position := (p : Int), inflight := s.inflight + 1 }) hat
  refine ⟨_, e, hst, rfl, hz, ?_⟩
  rw [hz]
  rintro ⟨_, h⟩
  simp only [Int.toNat_natCast, hx, Option.some.injEq] at h
  exact hne h

theorem idle_loop (c : Cfg α) (k : Nat) : ∀ s : St α, s.pc = .top → s.songs = [] →
    ∃ s', run c s (List.replicate k .loop) = some s' ∧ s'.pc = .top ∧ s'.songs = [] ∧ s'.current = s.current ∧
      s'.news = s.news := by
  induction k with
  | zero => intro s h1 h2; exact ⟨s, rfl, h1, h2, rfl, rfl⟩
  | succ k ih =>
    intro s h1 h2
    obtain ⟨s', e, r⟩ := ih { s with out := s.out ++ List.replicate noSongNan none } h1 h2
    refine ⟨s', ?_, r⟩
    rw [List.replicate_succ]
    simp only [run, step, h1, loopStep, h2, List.length_nil, if_true]
    simp only [h1, h2] at e
    exact e

/-- C105, where `CurrentSong` fails: when the only song is removed and skipped, nothing plays any more, but `CurrentSong`
(and with it the `playlist` command) goes on naming it, however long. -/
theorem C105_current_stale (c : Cfg α) (song : String) (hn : song ≠ "") (l : List α) (hd : c.dec song = some l) (k : Nat) :
    ∃ s, run c (init [song]) ([.loop, .loop, .loop, .loop, .loop, .loop, .loop, .edit [], .jumpWrite 0, .jumpToken, .loop, .loop] ++
        List.replicate k .loop) = some s ∧
      s.songs = [] ∧ ¬ Streaming s ∧ s.current = song := by
  have h0 : (0 : Int).tmod 1 = 0 := by decide
  obtain ⟨s', e, r1, r2, r3, r4⟩ := idle_loop c k
    { (init [song] : St α) with
        songs := [], playingLast := false, current := song, cuts := [1], news := [(0, song, l.length)], pauses := [(false, 0)],
        blocks := [(0, bufSize)], out := List.replicate bufSize none ++ List.replicate c.brk none } rfl rfl
  refine ⟨s', ?_, r2, ?_, r3⟩
  · rw [← e]
    simp [run, step, loopStep, init, Playlist.goGet, hn, hd, h0]
  · unfold Streaming; rw [r1]; simp

/-- Non-vacuity: two songs, the second is playing. -/
example : ∃ s : St Nat, run ⟨fun _ => some [1, 2], 1⟩ (init ["a", "b"]) ([.setPlaying true] ++ List.replicate 12 .loop) = some s ∧
    Streaming s ∧ s.current = "b" ∧ pos s = 1 ∧ s.out = [some 1, some 2, none] := by
  refine ⟨_, rfl, ?_, rfl, rfl, rfl⟩
  simp only [Streaming]

end MS.Position
