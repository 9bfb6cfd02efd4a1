import Verif.Model.ServerState
import Verif.Props.Infoer
/-!
# Properties C30-C32, C58, C59, C61, C62: what the server keeps for and tells new clients
-/
set_option linter.unusedSimpArgs false
namespace MS.Server
open MS.Infoer

/-! ## Pruning -/

theorem cut_ok (l : List Toggle) (k : Nat) (h : k ≤ l.length) : cut l k = .ok (l.drop k) := by
  have h' : ¬ (l.length < 0 ∨ l.length < k) := by omega
  simp only [cut, Playlist.goCopy, h', if_false, Res.map, List.take_zero, List.nil_append, Nat.zero_add]
  have hm : min (l.length - 0) (l.length - k) = l.length - k := by omega
  rw [hm, List.take_of_length_le (l := l.drop k) (by simp)]
  congr 1
  have hlen : (l.drop k ++ l.drop (l.length - k)).length - k = (l.drop k).length := by simp
  rw [hlen, List.take_left]

theorem cut_panic (l : List Toggle) (k : Nat) (h : l.length < k) : cut l k = .panic := by
  simp [cut, Playlist.goCopy, h, Res.map]

theorem loop_spec (first : Nat) (ps : List Toggle) : ∀ (i passed : Nat),
    removableLoop first i passed ps = passed ∨
      ∃ P r Q, ps = P ++ r :: Q ∧ removableLoop first i passed ps = i + P.length ∧ r.playing = true ∧
        r.toggleIndex ≤ first := by
  induction ps with
  | nil => intro i passed; left; rfl
  | cons p ps ih =>
    intro i passed
    simp only [removableLoop]
    by_cases h1 : first < p.toggleIndex
    · simp [h1]
    · cases hp : p.playing with
      | true =>
        simp only [h1, decide_false, Bool.not_false, Bool.and_self, if_true]
        right
        rcases ih (i + 1) i with h | ⟨P, r, Q, e, h, h2, h3⟩
        · exact ⟨[], p, ps, rfl, by simpa using h, hp, by omega⟩
        · exact ⟨p :: P, r, Q, by simp [e], by rw [h]; simp; omega, h2, h3⟩
      | false =>
        simp only [h1, decide_false, Bool.not_false, Bool.and_false, Bool.false_eq_true, if_false]
        rcases ih (i + 1) passed with h | ⟨P, r, Q, e, h, h2, h3⟩
        · exact .inl h
        · exact .inr ⟨p :: P, r, Q, by simp [e], by rw [h]; simp; omega, h2, h3⟩

/-- The number computed is 0 or the place of a resume at or before the newest song's start. -/
theorem removable_spec {σ : Type} (ss : Ss σ) (h : 0 < removable ss) :
    ∃ s P r Q, ss.newest = some s ∧ ss.pauses = P ++ r :: Q ∧ removable ss = P.length ∧ r.playing = true ∧
      r.toggleIndex ≤ s.startIndex := by
  simp only [removable] at h ⊢
  cases hn : ss.newest with
  | none => rw [hn] at h; simp at h
  | some s =>
    rw [hn] at h
    simp only at h ⊢
    rcases loop_spec s.startIndex ss.pauses 0 0 with e | ⟨P, r, Q, e, h1, h2, h3⟩
    · omega
    · exact ⟨s, P, r, Q, rfl, e, by omega, h2, h3⟩

/-! ## C30, C31: one thing after the other -/

/-- Specification: the toggles, songs and volumes of a history. -/
def togglesOf {σ : Type} (h : List (Op σ)) : List Toggle := h.filterMap (fun | .toggle t => some t | _ => none)
def songsOf {σ : Type} (h : List (Op σ)) : List (Song σ) := h.filterMap (fun | .song s => some s | _ => none)
def volumesOf {σ : Type} (h : List (Op σ)) : List UInt64 := h.filterMap (fun | .volume v => some (v.getD 0) | _ => none)

/-- `kept` is all of `all`, or its part from a resume at or before `newest`'s start on. -/
def Retains {σ : Type} (newest : Option (Song σ)) (all kept : List Toggle) : Prop :=
  kept = all ∨ ∃ s P r Q, newest = some s ∧ all = P ++ r :: Q ∧ kept = r :: Q ∧ r.playing = true ∧
    r.toggleIndex ≤ s.startIndex

theorem Retains.newer {σ : Type} {n n' : Option (Song σ)} {all kept : List Toggle} (h : Retains n all kept)
    (hn : ∀ s, n = some s → ∃ s', n' = some s' ∧ s.startIndex ≤ s'.startIndex) : Retains n' all kept := by
  rcases h with h | ⟨s, P, r, Q, e, h1, h2, h3, h4⟩
  · exact .inl h
  · obtain ⟨s', e', hle⟩ := hn s e
    exact .inr ⟨s', P, r, Q, e', h1, h2, h3, by omega⟩

theorem Retains.snoc {σ : Type} {n : Option (Song σ)} {all kept : List Toggle} (h : Retains n all kept) (l : List Toggle) :
    Retains n (all ++ l) (kept ++ l) := by
  rcases h with h | ⟨s, P, r, Q, e, h1, h2, h3, h4⟩
  · exact .inl (by rw [h])
  · exact .inr ⟨s, P, r, Q ++ l, e, by rw [h1]; simp, by rw [h2]; simp, h3, h4⟩

/-- Cutting at a resume not after the newest song's start. -/
theorem Retains.cut {σ : Type} {n : Option (Song σ)} {all kept P Q : List Toggle} {r : Toggle} {s : Song σ}
    (h : Retains n all kept) (hn : n = some s) (hk : kept = P ++ r :: Q) (hr : r.playing = true)
    (hle : r.toggleIndex ≤ s.startIndex) : Retains n all (r :: Q) := by
  rcases h with h | ⟨s', P', r', Q', e, h1, h2, h3, h4⟩
  · exact .inr ⟨s, P, r, Q, hn, by rw [← h, hk], rfl, hr, hle⟩
  · exact .inr ⟨s, P' ++ P, r, Q, hn, by rw [h1, ← h2, hk]; simp, rfl, hr, hle⟩

theorem retains_same {σ : Type} {newest : Option (Song σ)} {all kept : List Toggle} (h : Retains newest all kept)
    (later : List Toggle) (hc : Chrono (all ++ later)) (s : Song σ) (hs : newest = some s) (start n : Nat)
    (h1 : s.startIndex ≤ start) (h2 : start < n) (hn : n < 2 ^ 63) :
    pausesInCurrentSong n start (kept ++ later) = pausesInCurrentSong n start (all ++ later) := by
  rcases h with h | ⟨s', P, r, Q, e, g1, g2, g3, g4⟩
  · rw [h]
  · rw [hs] at e
    injection e with e
    subst e
    rw [g1] at hc
    rw [g1, g2]
    rw [show P ++ r :: Q ++ later = P ++ r :: (Q ++ later) by simp] at hc ⊢
    rw [drop_before_resume n start hn P (Q ++ later) r hc g3 (by omega) (by omega)]
    rfl

theorem removeOld_retains {σ : Type} (ss : Ss σ) (all : List Toggle) (h : Retains ss.newest all ss.pauses) :
    ∃ ss', removeOldPauses ss = .ok ss' ∧ ss'.volume = ss.volume ∧ ss'.newest = ss.newest ∧
      Retains ss'.newest all ss'.pauses := by
  simp only [removeOldPauses]
  by_cases hr : 0 < removable ss
  · obtain ⟨s, P, r, Q, e1, e2, e3, e4, e5⟩ := removable_spec ss hr
    rw [if_pos hr, cut_ok _ _ (by rw [e2, e3]; simp)]
    refine ⟨_, rfl, rfl, rfl, ?_⟩
    simp only
    rw [e3, e2, List.drop_left]
    exact h.cut e1 e2 e4 e5
  · rw [if_neg hr]
    exact ⟨ss, rfl, rfl, rfl, h⟩

theorem applyAll_spec {σ : Type} (h : List (Op σ)) : ∀ (ss : Ss σ) (all : List Toggle),
    Retains ss.newest all ss.pauses →
    (ss.newest.toList ++ songsOf h).Pairwise (fun a b => a.startIndex ≤ b.startIndex) →
    ∃ ss', applyAll ss h = .ok ss' ∧ ss'.volume = (ss.volume :: volumesOf h).getLast (by simp) ∧
      ss'.newest = (ss.newest.toList ++ songsOf h).getLast? ∧ Retains ss'.newest (all ++ togglesOf h) ss'.pauses := by
  induction h with
  | nil =>
    intro ss all hr _
    refine ⟨ss, rfl, rfl, ?_, by simpa [togglesOf] using hr⟩
    cases ss.newest <;> rfl
  | cons o h ih =>
    intro ss all hr hs
    cases o with
    | volume v =>
      obtain ⟨ss', e1, e2, e3, e4⟩ := ih { ss with volume := v.getD 0 } all hr hs
      refine ⟨ss', by simpa [applyAll, apply, Res.bind] using e1, ?_, e3, e4⟩
      rw [e2]
      have e : volumesOf (Op.volume v :: h) = (v.getD 0) :: volumesOf h := rfl
      simp only [e]
      rw [List.getLast_cons (a := ss.volume) (by simp)]
    | song s =>
      have hsong : songsOf (Op.song s :: h) = s :: songsOf h := rfl
      rw [hsong] at hs
      have hs' : ((some s).toList ++ songsOf h).Pairwise (fun a b => a.startIndex ≤ b.startIndex) :=
        hs.sublist (by cases ss.newest <;> simp)
      have hn : ∀ s0, ss.newest = some s0 → ∃ s', some s = some s' ∧ s0.startIndex ≤ s'.startIndex := by
        intro s0 h0
        refine ⟨s, rfl, ?_⟩
        rw [h0] at hs
        exact (List.pairwise_cons.1 hs).1 s (by simp)
      obtain ⟨ss', e1, e2, e3, e4⟩ := ih { ss with newest := some s } all (hr.newer hn) hs'
      refine ⟨ss', by simpa [applyAll, apply, Res.bind] using e1, e2, ?_, e4⟩
      rw [e3, hsong]
      cases ss.newest <;> simp [List.getLast?_cons_cons]
    | toggle t =>
      obtain ⟨s1, f1, f2, f3, f4⟩ := removeOld_retains { ss with pauses := ss.pauses ++ [t] } (all ++ [t]) (hr.snoc [t])
      have f3' : s1.newest = ss.newest := f3
      obtain ⟨ss', e1, e2, e3, e4⟩ := ih s1 (all ++ [t]) f4 (by rw [f3']; exact hs)
      refine ⟨ss', by simp only [applyAll, apply, f1, Res.bind, e1], ?_, ?_, ?_⟩
      · rw [e2]; simp only [f2]; rfl
      · rw [e3, f3']; rfl
      · have : all ++ togglesOf (Op.toggle t :: h) = all ++ [t] ++ togglesOf h := by
          show all ++ (t :: togglesOf h) = _
          simp
        rw [this]; exact e4

/-- C30. After any history (songs in the order of their start) handled one thing after the other: the server has not
crashed; a client subscribing to AUDIO (0) is sent the last volume set; on META (1) the last volume set, then the newest song if
there was one, then toggles in order: all that happened, or those from some resume not after the newest song's start on;
a fresh connection (-1) is sent nothing. -/
theorem C30_replay {σ : Type} (h : List (Op σ))
    (hs : (songsOf h).Pairwise (fun a b => a.startIndex ≤ b.startIndex)) :
    ∃ ss kept, applyAll Ss.init h = .ok ss ∧ kept.Sublist (togglesOf h) ∧
      Retains (songsOf h).getLast? (togglesOf h) kept ∧
      clientHandler 0 ss = [.volume ((0x3FB999999999999A :: volumesOf h).getLast (by simp))] ∧
      clientHandler 1 ss = .volume ((0x3FB999999999999A :: volumesOf h).getLast (by simp)) ::
        ((songsOf h).getLast?.toList.map .song ++ kept.map .pause) ∧
      clientHandler (-1) ss = [] := by
  obtain ⟨ss, e1, e2, e3, e4⟩ := applyAll_spec h (Ss.init (σ := σ)) [] (.inl rfl) (by simpa [Ss.init] using hs)
  have e3' : ss.newest = (songsOf h).getLast? := by rw [e3]; simp [Ss.init]
  refine ⟨ss, ss.pauses, e1, ?_, by rw [← e3']; simpa using e4, ?_, ?_, by simp [clientHandler, AUDIO, META]⟩
  · rw [List.nil_append] at e4
    rcases e4 with e | ⟨_, P, r, Q, _, g1, g2, _⟩
    · rw [e]; exact List.Sublist.refl _
    · rw [g1, g2]; exact List.sublist_append_right _ _
  · show clientHandler AUDIO ss = _
    simp only [clientHandler, if_true, sendVolume, e2]; rfl
  · show clientHandler META ss = _
    have : META ≠ AUDIO := by decide
    simp only [clientHandler, this, if_false, if_true, sendVolume, sendNewestSong, sendPauses, e2]
    rw [← e3']
    cases ss.newest <;> simp [Ss.init]

/-- Non-vacuity: two songs, a volume command, three toggles of which the first is no longer needed. -/
example : ∃ ss, applyAll (σ := Unit) Ss.init [.song ⟨(), 0, 5⟩, .toggle ⟨false, 10⟩, .toggle ⟨true, 20⟩, .volume (some 7),
    .song ⟨(), 100, 5⟩, .toggle ⟨false, 110⟩] = .ok ss ∧
    clientHandler META ss = [.volume 7, .song ⟨(), 100, 5⟩, .pause ⟨true, 20⟩, .pause ⟨false, 110⟩] :=
  ⟨_, rfl, by decide⟩

/-- C31. For any history with toggles in chronological order: an infoer that subscribes now and only gets the toggles
the server has retained computes the same paused count and play state as with all toggles, for the newest song and every
later one, at every position, whatever toggles follow. -/
theorem C31_retained_suffice {σ : Type} (h : List (Op σ)) (later : List Toggle)
    (hs : (songsOf h).Pairwise (fun a b => a.startIndex ≤ b.startIndex)) (hc : Chrono (togglesOf h ++ later))
    (s : Song σ) (hn : (songsOf h).getLast? = some s) :
    ∃ ss, applyAll Ss.init h = .ok ss ∧ ∀ start n : Nat, s.startIndex ≤ start → start < n → n < 2 ^ 63 →
      pausesInCurrentSong n start (ss.pauses ++ later) = pausesInCurrentSong n start (togglesOf h ++ later) := by
  obtain ⟨ss, e1, e2, e3, e4⟩ := applyAll_spec h (Ss.init (σ := σ)) [] (.inl rfl) (by simpa [Ss.init] using hs)
  have e3' : ss.newest = some s := by rw [e3, ← hn]; simp [Ss.init]
  refine ⟨ss, e1, fun start n h1 h2 h3 => ?_⟩
  exact retains_same (by simpa using e4) later hc s e3' start n h1 h2 h3

/-! ## C32: all schedules of the pruning goroutines -/

/-- A step with which at most one `removeOldPauses` is between its sections, toggles are appended in chronological order
and the newest song does not go back. -/
def Calm {σ : Type} (a b : Cfg σ) : Prop :=
  Step a b ∧ b.cuts.length ≤ 1 ∧ Chrono b.appended ∧
    ∀ s, a.ss.newest = some s → ∃ s', b.ss.newest = some s' ∧ s.startIndex ≤ s'.startIndex

/-- Invariant of calm executions. -/
def CInv {σ : Type} (c : Cfg σ) : Prop :=
  c.crashed = false ∧ Retains c.ss.newest c.appended c.ss.pauses ∧
    ∀ k ∈ c.cuts, ∃ s P r Q, c.ss.newest = some s ∧ c.ss.pauses = P ++ r :: Q ∧ k = P.length ∧ r.playing = true ∧
      r.toggleIndex ≤ s.startIndex

theorem cinv_step {σ : Type} {a b : Cfg σ} (h : CInv a) (hab : Calm a b) (ha : a.cuts.length ≤ 1) : CInv b := by
  obtain ⟨hs, hcuts, _, hnew⟩ := hab
  obtain ⟨h1, h2, h3⟩ := h
  cases hs with
  | songStore hc x y s hx =>
    refine ⟨h1, h2.newer hnew, ?_⟩
    intro k hk
    obtain ⟨s0, P, r, Q, g1, g2, g3, g4, g5⟩ := h3 k hk
    obtain ⟨s', g6, g7⟩ := hnew s0 g1
    exact ⟨s', P, r, Q, g6, g2, g3, g4, by omega⟩
  | append hc x y t hx =>
    refine ⟨h1, h2.snoc [t], ?_⟩
    intro k hk
    obtain ⟨s, P, r, Q, g1, g2, g3, g4, g5⟩ := h3 k hk
    exact ⟨s, P, r, Q ++ [t], g1, by simp [g2], g3, g4, g5⟩
  | look hc n hx =>
    refine ⟨h1, h2, ?_⟩
    intro k hk
    simp only at hk
    split at hk
    · rename_i hr
      rcases List.mem_append.1 hk with hk | hk
      · exact h3 k hk
      · obtain ⟨s, P, r, Q, g1, g2, g3, g4, g5⟩ := removable_spec a.ss hr
        exact ⟨s, P, r, Q, g1, g2, by rw [List.mem_singleton.1 hk, g3], g4, g5⟩
    · exact h3 k hk
  | cut hc x y k l hx hk =>
    have hxy : x = [] ∧ y = [] := by
      rw [hx] at ha
      simp at ha
      constructor
      · exact List.eq_nil_of_length_eq_zero (by omega)
      · exact List.eq_nil_of_length_eq_zero (by omega)
    obtain ⟨s, P, r, Q, g1, g2, g3, g4, g5⟩ := h3 k (by rw [hx]; simp)
    rw [cut_ok _ _ (by rw [g2, g3]; simp)] at hk
    injection hk with hk
    refine ⟨h1, ?_, ?_⟩
    · show Retains a.ss.newest a.appended l
      rw [← hk, g3, g2, List.drop_left]
      exact h2.cut g1 g2 g4 g5
    · intro k' hk'
      simp [hxy] at hk'
  | cutPanic hc x y k hx hk =>
    obtain ⟨s, P, r, Q, g1, g2, g3, g4, g5⟩ := h3 k (by rw [hx]; simp)
    rw [cut_ok _ _ (by rw [g2, g3]; simp)] at hk
    simp at hk
  | _ => exact ⟨h1, h2, h3⟩

theorem cinv_reach {σ : Type} {c : Cfg σ} (h : Star Calm Cfg.init c) : CInv c ∧ c.cuts.length ≤ 1 := by
  induction h with
  | refl => exact ⟨⟨rfl, .inl rfl, by simp [Cfg.init]⟩, by simp [Cfg.init]⟩
  | tail _ hs ih => exact ⟨cinv_step ih.1 hs ih.2, hs.2.1⟩

/-- C32, where it holds: in every execution in which no two `removeOldPauses` are between their two locked sections at
the same time, toggles are appended in order and the newest song does not go back, the server does not crash in pruning
and what it retains suffices, at every moment. Missing: executions without these restrictions, for which it is false
(below). -/
theorem C32_calm_partial {σ : Type} {c : Cfg σ} (h : Star Calm Cfg.init c) :
    c.crashed = false ∧ ∀ s, c.ss.newest = some s → ∀ (later : List Toggle) (start n : Nat),
      Chrono (c.appended ++ later) → s.startIndex ≤ start → start < n → n < 2 ^ 63 →
      pausesInCurrentSong n start (c.ss.pauses ++ later) = pausesInCurrentSong n start (c.appended ++ later) := by
  obtain ⟨⟨h1, h2, _⟩, _⟩ := cinv_reach h
  refine ⟨h1, fun s hs later start n hc g1 g2 g3 => ?_⟩
  exact retains_same h2 later hc s hs start n g1 g2 g3

section examples
/-- Doing one toggle completely except for its pruning. -/
theorem do_toggle {σ : Type} {c0 c : Cfg σ} (h : Star Step c0 c) (hc : c.crashed = false) (ha : c.appends = [])
    (hb : c.toggleSends = []) (t : Toggle) :
    Star Step c0 { c with
      ss := { c.ss with pauses := c.ss.pauses ++ [t] }, looks := c.looks + 1, appended := c.appended ++ [t],
      inbox := bcast c [.pause t], late := c.lateWith t } := by
  have s1 := h.tail (Step.toggle c hc t)
  have s2 := s1.tail (Step.append _ (by exact hc) [] [] t (by simp [ha]))
  have s3 := s2.tail (Step.toggleSend _ (by exact hc) [] [] t (by simp [hb]))
  refine cast (congrArg _ ?_) s3
  cases c
  simp_all [bcast, Cfg.lateWith]

theorem do_song {σ : Type} {c0 c : Cfg σ} (h : Star Step c0 c) (hc : c.crashed = false) (ha : c.songs = []) (s : Song σ) :
    Star Step c0 { c with ss := { c.ss with newest := some s }, inbox := bcast c [.song s], begun := c.begun ++ [s] } := by
  have s1 := h.tail (Step.songStart c hc s)
  have s2 := s1.tail (Step.songStore _ (by exact hc) [] [] s (by simp [ha]))
  have s3 := s2.tail (Step.songSend _ (by exact hc) [] [] s (by simp))
  refine cast (congrArg _ ?_) s3
  cases c
  simp_all [bcast, sendNewestSong]

theorem do_look {σ : Type} {c0 c : Cfg σ} (h : Star Step c0 c) (hc : c.crashed = false) (n : Nat) (hl : c.looks = n + 1) :
    Star Step c0 { c with looks := n, cuts := if 0 < removable c.ss then c.cuts ++ [removable c.ss] else c.cuts } :=
  h.tail (Step.look c hc n hl)

/-- Four toggles in the first song, each pruned at once (nothing to remove); then the second song, a pause and a resume
in it: two prunings are under way. -/
theorem two_prunings : Star Step Cfg.init
    (⟨⟨0x3FB999999999999A, some ⟨(), 100, 50⟩, [⟨false, 10⟩, ⟨true, 20⟩, ⟨false, 30⟩, ⟨true, 40⟩, ⟨false, 110⟩, ⟨true, 120⟩]⟩,
      false, [], [], [], 0, [3, 3], 0, .notYet, [],
      [⟨false, 10⟩, ⟨true, 20⟩, ⟨false, 30⟩, ⟨true, 40⟩, ⟨false, 110⟩, ⟨true, 120⟩], [⟨(), 0, 100⟩, ⟨(), 100, 50⟩], []⟩ : Cfg Unit) := by
  have h0 := do_song (.refl (Cfg.init (σ := Unit))) rfl rfl ⟨(), 0, 100⟩
  have h1 := do_look (do_toggle h0 rfl rfl rfl ⟨false, 10⟩) rfl 0 rfl
  have h2 := do_look (do_toggle h1 rfl rfl rfl ⟨true, 20⟩) rfl 0 rfl
  have h3 := do_look (do_toggle h2 rfl rfl rfl ⟨false, 30⟩) rfl 0 rfl
  have h4 := do_look (do_toggle h3 rfl rfl rfl ⟨true, 40⟩) rfl 0 rfl
  have h5 := do_song h4 rfl rfl ⟨(), 100, 50⟩
  have h6 := do_toggle h5 rfl rfl rfl ⟨false, 110⟩
  have h7 := do_toggle h6 rfl rfl rfl ⟨true, 120⟩
  have h8 := do_look h7 rfl 1 rfl
  exact do_look h8 rfl 0 rfl

/-- C32 is false: two prunings that both look before either cuts remove the same number twice; the pause inside the
current song is lost, and an infoer that subscribes then counts 0 paused samples instead of 10. -/
theorem C32_double_pruning : ∃ c : Cfg Unit, Star Step Cfg.init c ∧ Quiet c ∧ c.ss.newest = some ⟨(), 100, 50⟩ ∧
    Chrono c.appended ∧ pausesInCurrentSong 130 100 c.ss.pauses = (0, true) ∧
    pausesInCurrentSong 130 100 c.appended = (10, true) := by
  have h1 := two_prunings.tail (Step.cut _ rfl [] [3] 3 _ rfl rfl)
  have h2 := h1.tail (Step.cut _ rfl [] [] 3 _ rfl rfl)
  refine ⟨_, h2, by simp [Quiet], rfl, by simp [Chrono], by decide, by decide⟩

/-- C32 is false: the same with only one toggle in the second song after more in the first crashes the server. -/
theorem C32_pruning_crash : ∃ c : Cfg Unit, Star Step Cfg.init c ∧ Chrono c.appended ∧ c.crashed = true := by
  have h0 := do_song (.refl (Cfg.init (σ := Unit))) rfl rfl ⟨(), 0, 100⟩
  have h1 := do_look (do_toggle h0 rfl rfl rfl ⟨false, 10⟩) rfl 0 rfl
  have h2 := do_look (do_toggle h1 rfl rfl rfl ⟨true, 20⟩) rfl 0 rfl
  have h3 := do_look (do_toggle h2 rfl rfl rfl ⟨false, 30⟩) rfl 0 rfl
  have h4 := do_look (do_toggle h3 rfl rfl rfl ⟨true, 40⟩) rfl 0 rfl
  have h41 := do_look (do_toggle h4 rfl rfl rfl ⟨false, 50⟩) rfl 0 rfl
  have h42 := do_look (do_toggle h41 rfl rfl rfl ⟨true, 60⟩) rfl 0 rfl
  have h5 := do_song h42 rfl rfl ⟨(), 100, 50⟩
  have h6 := do_toggle h5 rfl rfl rfl ⟨false, 110⟩
  have h7 := do_toggle h6 rfl rfl rfl ⟨true, 120⟩
  have h8 := do_look (do_look h7 rfl 1 rfl) rfl 0 rfl
  have h9 := h8.tail (Step.cut _ rfl [] [5] 5 _ rfl rfl)
  have h10 := h9.tail (Step.cutPanic _ rfl [] [] 5 rfl rfl)
  exact ⟨_, h10, by simp [Chrono, Cfg.init], rfl⟩

/-- C32 is false: the goroutines that append run in any order; a resume appended after the pause that followed it makes
the server drop that pause, although it still holds. -/
theorem C32_out_of_order : ∃ c : Cfg Unit, Star Step Cfg.init c ∧ Quiet c ∧ c.ss.newest = some ⟨(), 200, 50⟩ ∧
    c.appended.Perm [⟨true, 50⟩, ⟨false, 100⟩] ∧ pausesInCurrentSong 230 200 c.ss.pauses = (0, true) ∧
    pausesInCurrentSong 230 200 [⟨true, 50⟩, ⟨false, 100⟩] = (30, false) := by
  have h0 := do_song (.refl (Cfg.init (σ := Unit))) rfl rfl ⟨(), 0, 200⟩
  have h1 := h0.tail (Step.toggle _ rfl ⟨true, 50⟩)
  have h2 := h1.tail (Step.toggle _ rfl ⟨false, 100⟩)
  have h3 := h2.tail (Step.append _ rfl [⟨true, 50⟩] [] ⟨false, 100⟩ rfl)
  have h4 := h3.tail (Step.append _ rfl [] [] ⟨true, 50⟩ rfl)
  have h5 := h4.tail (Step.toggleSend _ rfl [] [⟨false, 100⟩] ⟨true, 50⟩ rfl)
  have h6 := h5.tail (Step.toggleSend _ rfl [] [] ⟨false, 100⟩ rfl)
  have h7 := do_look h6 rfl 1 rfl
  have h8 := do_song h7 rfl rfl ⟨(), 200, 50⟩
  have h9 := do_look h8 rfl 0 rfl
  have h10 := h9.tail (Step.cut _ rfl [] [] 1 _ rfl rfl)
  exact ⟨_, h10, by simp [Quiet, Cfg.init], rfl, List.Perm.swap _ _ _, by decide, by decide⟩

/-- Non-vacuity of `C32_calm_partial`: a calm execution that prunes. -/
example : ∃ c : Cfg Unit, Star Calm Cfg.init c ∧ c.ss.pauses = [⟨true, 20⟩, ⟨false, 110⟩] ∧
    c.appended = [⟨false, 10⟩, ⟨true, 20⟩, ⟨false, 110⟩] := by
  have h1 := (Star.refl (Cfg.init (σ := Unit))).tail (r := Calm)
    ⟨Step.toggle _ rfl ⟨false, 10⟩, by simp [Cfg.init], by simp [Chrono, Cfg.init], by simp [Cfg.init, Ss.init]⟩
  have h2 := h1.tail (r := Calm)
    ⟨Step.append _ rfl [] [] _ rfl, by simp [Cfg.init], by simp [Chrono, Cfg.init], by simp [Cfg.init, Ss.init]⟩
  have h3 := h2.tail (r := Calm)
    ⟨Step.toggle _ rfl ⟨true, 20⟩, by simp [Cfg.init], by simp [Chrono, Cfg.init], by simp [Cfg.init, Ss.init]⟩
  have h4 := h3.tail (r := Calm)
    ⟨Step.append _ rfl [] [] _ rfl, by simp [Cfg.init], by simp [Chrono, Cfg.init], by simp [Cfg.init, Ss.init]⟩
  have h5 := h4.tail (r := Calm)
    ⟨Step.songStart _ rfl ⟨(), 100, 50⟩, by simp [Cfg.init], by simp [Chrono, Cfg.init], by simp [Cfg.init, Ss.init]⟩
  have h6 := h5.tail (r := Calm)
    ⟨Step.songStore _ rfl [] [] _ rfl, by simp [Cfg.init], by simp [Chrono, Cfg.init], by simp [Cfg.init, Ss.init]⟩
  have h7 := h6.tail (r := Calm)
    ⟨Step.toggle _ rfl ⟨false, 110⟩, by simp [Cfg.init], by simp [Chrono, Cfg.init], by simp [Cfg.init, Ss.init]⟩
  have h8 := h7.tail (r := Calm)
    ⟨Step.append _ rfl [] [] _ rfl, by simp [Cfg.init], by simp [Chrono, Cfg.init], by simp [Cfg.init, Ss.init]⟩
  have h9 := h8.tail (r := Calm)
    ⟨Step.look _ rfl 2 rfl, by decide, by simp [Chrono, Cfg.init],
      by simp [Cfg.init, Ss.init]⟩
  have h10 := h9.tail (r := Calm)
    ⟨Step.cut _ rfl [] [] 1 _ rfl rfl, by simp [Cfg.init], by simp [Chrono, Cfg.init], by simp [Cfg.init, Ss.init]⟩
  exact ⟨_, h10, rfl, rfl⟩

/-! ## C58: the volume a new client ends with -/

/-- Specification: the last volume among the messages sent to the client. -/
def lastVolume {σ : Type} (l : List (Sent σ)) : Option UInt64 :=
  (l.filterMap (fun | .volume v => some v | _ => none)).getLast?

/-- C58 is false: a client that subscribes while the volume is changed may be sent the new volume first and the old one
after it. -/
theorem C58_stale_volume : ∃ c : Cfg Unit, Star Step Cfg.init c ∧ Quiet c ∧ c.rp = .done ∧
    c.ss.volume = 7 ∧ c.inbox = [.volume 7, .volume 0x3FB999999999999A] ∧
    lastVolume c.inbox = some 0x3FB999999999999A := by
  have h1 := (Star.refl (Cfg.init (σ := Unit))).tail (Step.subscribe _ rfl rfl)
  have h2 := h1.tail (Step.readVolume _ rfl rfl)
  have h3 := h2.tail (Step.volumeSet _ rfl 7)
  have h4 := h3.tail (Step.volumeSend _ rfl 0 rfl)
  have h5 := h4.tail (Step.writeVolume _ rfl _ rfl)
  have h6 := h5.tail (Step.readSong _ rfl rfl)
  have h7 := h6.tail (Step.writeSong _ rfl _ rfl)
  have h8 := h7.tail (Step.sendPauses _ rfl rfl)
  exact ⟨_, h8, by simp [Quiet, Cfg.init], rfl, rfl, rfl, by decide⟩

/-- A step that does not set the volume while the new client's handler has read it but not yet sent it. -/
def VolumeCalm {σ : Type} (a b : Cfg σ) : Prop :=
  Step a b ∧ ∀ v, a.rp = .volumeRead v → b.ss.volume = a.ss.volume

def VInv {σ : Type} (c : Cfg σ) : Prop :=
  match c.rp with
  | .notYet => True
  | .subscribed => True
  | .volumeRead v => v = c.ss.volume
  | _ => 0 < c.volumeSends ∨ lastVolume c.inbox = some c.ss.volume

theorem lastVolume_snoc {σ : Type} (l m : List (Sent σ)) (h : ∀ v, Sent.volume v ∉ m) : lastVolume (l ++ m) = lastVolume l := by
  have : m.filterMap (fun | .volume v => some v | _ => none) = ([] : List UInt64) := by
    rw [List.filterMap_eq_nil_iff]
    intro x hx
    cases x with
    | volume v => exact absurd hx (h v)
    | _ => rfl
  simp [lastVolume, List.filterMap_append, this]

theorem lastVolume_vol {σ : Type} (l : List (Sent σ)) (v : UInt64) : lastVolume (l ++ [.volume v]) = some v := by
  simp [lastVolume, List.filterMap_append]

theorem vinv_step {σ : Type} {a b : Cfg σ} (h : VInv a) (hab : VolumeCalm a b) : VInv b := by
  obtain ⟨hs, hv⟩ := hab
  cases hs with
  | songSend hc x y s hx =>
    simp only [VInv, bcast] at h ⊢
    cases hr : a.rp <;> simp only [hr] at h ⊢ <;> try exact h
    all_goals
      rw [lastVolume_snoc _ _ (by intro v hv; simp only [sendNewestSong] at hv; split at hv <;> simp at hv)]
      exact h
  | toggleSend hc x y t hx =>
    simp only [VInv, bcast] at h ⊢
    cases hr : a.rp <;> simp only [hr] at h ⊢ <;> try exact h
    all_goals
      rw [lastVolume_snoc _ _ (by simp)]
      exact h
  | volumeSet hc v =>
    simp only [VInv] at h ⊢
    cases hr : a.rp with
    | volumeRead w =>
      have := hv w hr
      simp only [hr] at h ⊢
      rw [h]; exact this.symm
    | _ => simp [hr]
  | volumeSend hc n hx =>
    simp only [VInv, bcast, sendVolume] at h ⊢
    cases hr : a.rp <;> simp only [hr] at h ⊢ <;> try exact h
    all_goals exact .inr (lastVolume_vol _ _)
  | subscribe hc hx => simp [VInv]
  | readVolume hc hx => simp [VInv]
  | writeVolume hc v hx =>
    simp only [VInv, hx] at h ⊢
    exact .inr (by rw [lastVolume_vol, h])
  | readSong hc hx => simpa only [VInv, hx] using h
  | writeSong hc s hx =>
    simp only [VInv, hx] at h ⊢
    rw [lastVolume_snoc _ _ (by cases s <;> simp)]
    exact h
  | sendPauses hc hx =>
    simp only [VInv, hx] at h ⊢
    rw [lastVolume_snoc _ _ (by simp [sendPauses])]
    exact h
  | _ => exact h

/-- C58, where it holds: in every execution in which the volume is not set just while a new client's handler is between
reading and sending it, when nothing is under way any more, the last volume sent to the client is the server's volume. -/
theorem C58_volume_partial {σ : Type} {c : Cfg σ} (h : Star VolumeCalm Cfg.init c) (hq : Quiet c) (hd : c.rp = .done) :
    lastVolume c.inbox = some c.ss.volume := by
  have : VInv c := by
    clear hq hd
    induction h with
    | refl => trivial
    | tail _ hs ih => exact vinv_step ih hs
  simp only [VInv, hd] at this
  rcases this with h | h
  · have := hq.2.2.2.2.2.2; omega
  · exact h

/-! ## C59: toggles a new client misses -/

/-- C59 is false: a toggle that is broadcast before a client subscribes, but appended after the client has been sent the
retained toggles, never reaches the client. -/
theorem C59_missed_toggle : ∃ c : Cfg Unit, Star Step Cfg.init c ∧ Quiet c ∧ c.rp = .done ∧
    c.ss.pauses = [⟨false, 10⟩] ∧ c.inbox = [.volume 0x3FB999999999999A] := by
  have h1 := (Star.refl (Cfg.init (σ := Unit))).tail (Step.toggle _ rfl ⟨false, 10⟩)
  have h2 := h1.tail (Step.toggleSend _ rfl [] [] _ rfl)
  have h3 := h2.tail (Step.subscribe _ rfl rfl)
  have h4 := h3.tail (Step.readVolume _ rfl rfl)
  have h5 := h4.tail (Step.writeVolume _ rfl _ rfl)
  have h6 := h5.tail (Step.readSong _ rfl rfl)
  have h7 := h6.tail (Step.writeSong _ rfl _ rfl)
  have h8 := h7.tail (Step.sendPauses _ rfl rfl)
  have h9 := h8.tail (Step.append _ rfl [] [] _ rfl)
  have h10 := h9.tail (Step.look _ rfl 0 rfl)
  exact ⟨_, h10, by simp [Quiet, Cfg.init, removable, Ss.init], rfl, rfl, rfl⟩

def TInv {σ : Type} (c : Cfg σ) : Prop :=
  (∀ t ∈ c.late, t ∈ c.toggleSends ∨ Sent.pause t ∈ c.inbox) ∧ ((∃ t, t ∈ c.late) → c.rp ≠ .notYet)

theorem mem_bcast {σ : Type} {c : Cfg σ} {m : List (Sent σ)} {x : Sent σ} (h : x ∈ c.inbox) : x ∈ bcast c m := by
  simp only [bcast]
  split
  · exact h
  · simp [h]

theorem tinv_step {σ : Type} {a b : Cfg σ} (h : TInv a) (hs : Step a b) : TInv b := by
  obtain ⟨h1, h2⟩ := h
  cases hs with
  | toggle hc t =>
    refine ⟨?_, ?_⟩
    · intro t' ht'
      simp only at ht' ⊢
      have : t' ∈ a.late ∨ t' = t := by
        cases hr : a.rp <;> simp [hr, Cfg.lateWith] at ht' <;> first | exact .inl ht' | exact ht'
      rcases this with h | h
      · rcases h1 t' h with g | g
        · exact .inl (by simp [g])
        · exact .inr g
      · left; simp [h]
    · rintro ⟨t', ht'⟩ he
      simp only at ht' he
      rw [Cfg.lateWith, he] at ht'
      exact h2 ⟨t', ht'⟩ he
  | toggleSend hc x y t hx =>
    refine ⟨?_, h2⟩
    intro t' ht'
    have hrp : a.rp ≠ .notYet := fun he => h2 ⟨t', ht'⟩ he
    rcases h1 t' ht' with g | g
    · rw [hx] at g
      simp only [List.mem_append, List.mem_cons] at g
      rcases g with g | g | g
      · exact .inl (by simp [g])
      · right
        subst g
        show Sent.pause t' ∈ bcast a _
        simp [bcast]
      · exact .inl (by simp [g])
    · exact .inr (mem_bcast g)
  | songSend hc x y s hx => exact ⟨fun t ht => (h1 t ht).imp id mem_bcast, h2⟩
  | volumeSend hc n hx => exact ⟨fun t ht => (h1 t ht).imp id mem_bcast, h2⟩
  | subscribe hc hx => exact ⟨h1, fun _ he => by simp at he⟩
  | readVolume hc hx => exact ⟨h1, fun _ he => by simp at he⟩
  | writeVolume hc v hx => exact ⟨fun t ht => (h1 t ht).imp id (fun g => by simp [g]), fun _ he => by simp at he⟩
  | readSong hc hx => exact ⟨h1, fun _ he => by simp at he⟩
  | writeSong hc s hx => exact ⟨fun t ht => (h1 t ht).imp id (fun g => by simp [g]), fun _ he => by simp at he⟩
  | sendPauses hc hx => exact ⟨fun t ht => (h1 t ht).imp id (fun g => by simp [g]), fun _ he => by simp at he⟩
  | _ => exact ⟨h1, h2⟩

/-- C59, where it holds: for every schedule, every toggle whose handler starts after the client has subscribed has been
sent to it when nothing is under way any more. -/
theorem C59_later_toggles_partial {σ : Type} {c : Cfg σ} (h : Star Step Cfg.init c) (hq : Quiet c) :
    ∀ t ∈ c.late, Sent.pause t ∈ c.inbox := by
  have : TInv c := by
    clear hq
    induction h with
    | refl => exact ⟨by simp [Cfg.init], by simp [Cfg.init]⟩
    | tail _ hs ih => exact tinv_step ih hs
  intro t ht
  rcases this.1 t ht with g | g
  · rw [hq.2.2.2.1] at g; simp at g
  · exact g

/-! ## C61: the song a new client is told -/

def Told {σ : Type} (c : Cfg σ) : Prop :=
  (∃ x ∈ c.songs, x.2 = true) ∨ ∃ s, c.ss.newest = some s ∧ Sent.song s ∈ c.inbox

def SInv {σ : Type} (c : Cfg σ) : Prop :=
  (∀ x ∈ c.songs, x.2 = true → ∃ s, c.ss.newest = some s) ∧
  match c.rp with
  | .songRead o => o = c.ss.newest ∨ Told c
  | .songSent => c.ss.newest = none ∨ Told c
  | .done => c.ss.newest = none ∨ Told c
  | _ => True

theorem sinv_step {σ : Type} {a b : Cfg σ} (h : SInv a) (hs : Step a b) : SInv b := by
  obtain ⟨h0, h⟩ := h
  -- steps that keep songs and newest, and extend the inbox
  have keep : ∀ c : Cfg σ, c.songs = a.songs → c.ss.newest = a.ss.newest → (∀ m ∈ a.inbox, m ∈ c.inbox) → Told a → Told c := by
    intro c e1 e2 e3 ht
    rcases ht with ⟨x, hx, h⟩ | ⟨s, h, g⟩
    · exact .inl ⟨x, by rw [e1]; exact hx, h⟩
    · exact .inr ⟨s, by rw [e2]; exact h, e3 _ g⟩
  cases hs with
  | songStart hc s =>
    refine ⟨?_, ?_⟩
    · intro x hx hx2
      rcases List.mem_append.1 hx with hx | hx
      · exact h0 x hx hx2
      · simp at hx; rw [hx] at hx2; simp at hx2
    · cases hr : a.rp <;> simp only [hr] at h ⊢ <;> try trivial
      all_goals
        refine h.imp id ?_
        rintro (⟨x, hx, h⟩ | h)
        · exact .inl ⟨x, by simp [hx], h⟩
        · exact .inr h
  | songStore hc x y s hx =>
    refine ⟨fun _ _ _ => ⟨s, rfl⟩, ?_⟩
    cases hr : a.rp <;> simp only [hr] <;> try trivial
    all_goals exact .inr (.inl ⟨(s, true), by simp, rfl⟩)
  | songSend hc x y s hx =>
    obtain ⟨s0, hn⟩ := h0 (s, true) (by rw [hx]; simp) rfl
    refine ⟨fun _ _ _ => ⟨s0, hn⟩, ?_⟩
    cases hr : a.rp <;> simp only [hr] <;> try trivial
    all_goals exact .inr (.inr ⟨s0, hn, by simp [bcast, hr, sendNewestSong, hn]⟩)
  | toggleSend hc x y t hx =>
    refine ⟨h0, ?_⟩
    cases hr : a.rp <;> simp only [hr] at h ⊢ <;> try trivial
    all_goals exact h.imp id (keep _ rfl rfl (fun _ => mem_bcast))
  | volumeSend hc n hx =>
    refine ⟨h0, ?_⟩
    cases hr : a.rp <;> simp only [hr] at h ⊢ <;> try trivial
    all_goals exact h.imp id (keep _ rfl rfl (fun _ => mem_bcast))
  | subscribe hc hx => exact ⟨h0, trivial⟩
  | readVolume hc hx => exact ⟨h0, trivial⟩
  | writeVolume hc v hx => exact ⟨h0, trivial⟩
  | readSong hc hx => exact ⟨h0, .inl rfl⟩
  | writeSong hc s hx =>
    refine ⟨h0, ?_⟩
    simp only [hx] at h ⊢
    rcases h with h | h
    · cases hn : a.ss.newest with
      | none => exact .inl rfl
      | some s0 => exact .inr (.inr ⟨s0, hn, by rw [h, hn]; simp⟩)
    · exact .inr (keep _ rfl rfl (fun m hm => by simp [hm]) h)
  | sendPauses hc hx =>
    refine ⟨h0, ?_⟩
    simp only [hx] at h ⊢
    exact h.imp id (keep _ rfl rfl (fun m hm => by simp [hm]))
  | _ =>
    refine ⟨h0, ?_⟩
    cases hr : a.rp <;> simp only [hr] at h ⊢ <;> try trivial
    all_goals exact h.imp id (keep _ rfl rfl (fun _ hm => hm))

/-- For every schedule: when nothing is under way any more, a client that has been served has been sent the song the
server has stored as the newest. -/
theorem C61_stored_song_sent {σ : Type} {c : Cfg σ} (h : Star Step Cfg.init c) (hq : Quiet c) (hd : c.rp = .done)
    (s : Song σ) (hn : c.ss.newest = some s) : Sent.song s ∈ c.inbox := by
  have : SInv c := by
    clear hq hd hn
    induction h with
    | refl => exact ⟨by simp [Cfg.init], trivial⟩
    | tail _ hs ih => exact sinv_step ih hs
  have := this.2
  simp only [hd] at this
  rcases this with g | ⟨x, hx, _⟩ | ⟨s', g, h'⟩
  · rw [hn] at g; simp at g
  · rw [hq.2.1] at hx; simp at hx
  · rw [hn] at g; injection g with g; rw [g]; exact h'

/-- A step with which song handlers do not overlap. -/
def SongCalm {σ : Type} (a b : Cfg σ) : Prop := Step a b ∧ b.songs.length ≤ 1

def BInv {σ : Type} (c : Cfg σ) : Prop :=
  c.songs.length ≤ 1 ∧ (match c.songs with
    | [] => c.begun.getLast? = c.ss.newest
    | x :: _ => c.begun.getLast? = some x.1 ∧ (x.2 = true → c.ss.newest = some x.1))

theorem binv_step {σ : Type} {a b : Cfg σ} (h : BInv a) (hab : SongCalm a b) : BInv b := by
  obtain ⟨hs, hl⟩ := hab
  obtain ⟨h0, h⟩ := h
  cases hs with
  | songStart hc s =>
    refine ⟨hl, ?_⟩
    have : a.songs = [] := by
      have h' : (a.songs ++ [(s, false)]).length ≤ 1 := hl
      simp at h'
      exact h'
    simp [this]
  | songStore hc x y s hx =>
    refine ⟨hl, ?_⟩
    have hx' : x = [] := by
      rw [hx] at h0; simp at h0
      exact List.eq_nil_of_length_eq_zero (by omega)
    subst hx'
    rw [hx] at h
    simpa using h.1
  | songSend hc x y s hx =>
    refine ⟨hl, ?_⟩
    have hx' : x = [] ∧ y = [] := by
      rw [hx] at h0; simp at h0
      exact ⟨List.eq_nil_of_length_eq_zero (by omega), List.eq_nil_of_length_eq_zero (by omega)⟩
    obtain ⟨rfl, rfl⟩ := hx'
    rw [hx] at h
    simp only [List.nil_append] at h ⊢
    rw [h.1, h.2 trivial]
  | _ => exact ⟨h0, h⟩

/-- C61, where it holds: if the handlers of songs do not overlap, a client that has been served has been sent the song
that was started last. -/
theorem C61_current_song_partial {σ : Type} {c : Cfg σ} (h : Star SongCalm Cfg.init c) (hq : Quiet c)
    (hd : c.rp = .done) (s : Song σ) (hs : c.begun.getLast? = some s) : Sent.song s ∈ c.inbox := by
  have hb : BInv c := by
    clear hq hd hs
    induction h with
    | refl => exact ⟨by simp [Cfg.init], rfl⟩
    | tail _ hs ih => exact binv_step ih hs
  have hstep : Star Step Cfg.init c := by
    clear hq hd hs hb
    induction h with
    | refl => exact .refl _
    | tail _ hs ih => exact ih.tail hs.1
  have := hb.2
  rw [hq.2.1] at this
  exact C61_stored_song_sent hstep hq hd s (by rw [← this]; exact hs)

/-- C61 is false in general: song handlers run concurrently (collecting lyrics and metadata takes time); if the handler of
an older song finishes later, clients subscribing then are told only the older song. -/
theorem C61_older_song : ∃ c : Cfg Unit, Star Step Cfg.init c ∧ Quiet c ∧ c.rp = .done ∧
    c.begun = [⟨(), 0, 100⟩, ⟨(), 100, 50⟩] ∧ c.inbox = [.volume 0x3FB999999999999A, .song ⟨(), 0, 100⟩] := by
  have h1 := (Star.refl (Cfg.init (σ := Unit))).tail (Step.songStart _ rfl ⟨(), 0, 100⟩)
  have h2 := h1.tail (Step.songStart _ rfl ⟨(), 100, 50⟩)
  have h3 := h2.tail (Step.songStore _ rfl [(⟨(), 0, 100⟩, false)] [] _ rfl)
  have h4 := h3.tail (Step.songSend _ rfl [(⟨(), 0, 100⟩, false)] [] _ rfl)
  have h5 := h4.tail (Step.songStore _ rfl [] [] _ rfl)
  have h6 := h5.tail (Step.songSend _ rfl [] [] _ rfl)
  have h7 := h6.tail (Step.subscribe _ rfl rfl)
  have h8 := h7.tail (Step.readVolume _ rfl rfl)
  have h9 := h8.tail (Step.writeVolume _ rfl _ rfl)
  have h10 := h9.tail (Step.readSong _ rfl rfl)
  have h11 := h10.tail (Step.writeSong _ rfl _ rfl)
  have h12 := h11.tail (Step.sendPauses _ rfl rfl)
  exact ⟨_, h12, by simp [Quiet, Cfg.init], rfl, rfl, rfl⟩

end examples

end MS.Server
