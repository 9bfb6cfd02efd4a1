import Verif.Props.PauseHeard
import Verif.Props.Jump
/-!
# C132: how soon a song queued while nothing is playing is heard

While no song is being streamed, `StreamLoop` pushes silence in portions of 32768 samples (empty playlist) or of the break between
two songs. A song queued meanwhile has to wait for what is being pushed and for what the channels hold, but not longer.
-/
namespace MS.Queued
open MS.StreamLoop (Cfg Pc Playable loopStep bufSize noSongNan)
open MS.Streamer (samplesDuration)
open MS.PlaylistRun MS.PauseHeard MS.StreamMusic

variable {β : Type}

/-- Specification: no song is being streamed or about to be: the streaming goroutine is between two songs, or waits for one. -/
def Between (s : St β) : Prop :=
  match s.pl.pc with
  | .top => True
  | .brk => True
  | .incR _ => True
  | .incW _ _ => True
  | _ => False

/-- The break is still to come. -/
def ahead {α : Type} : Pc α → Bool
  | .brk => true
  | .incR _ => true
  | .incW _ _ => true
  | _ => false

/-- What is being pushed: at most 32768 samples or a break, and nothing at the end of a song. -/
def Small (c : Cfg (β × β)) (s : St β) : Prop :=
  s.push.length ≤ max noSongNan c.brk ∧ (ahead s.pl.pc = true → s.push = [])

theorem small_step {nan : β} {c : Cfg (β × β)} {s s' : St β} {a : Act} (h : Small c s) (e : step nan c s a = some s') : Small c s' := by
  have hb : bufSize = 512 := rfl
  have hn : 512 ≤ noSongNan := by rw [noSongNan]; omega
  unfold step at e
  split at e
  · cases e
  · cases a <;> simp only at e
    case loop =>
      split at e
      · rename_i hp
        have h0 : s.push.length ≤ max noSongNan c.brk := h.1
        unfold PlaylistRun.control at e
        split at e
        case h_1 =>
          split at e
          · rename_i hpc _
            cases e
            exact ⟨by simp only [List.length_replicate]; omega, by simp [ahead, hpc]⟩
          · simp only at e
            split at e <;> cases e <;> exact ⟨h0, by simp [ahead]⟩
        case h_2 =>
          split at e <;> cases e
          · exact ⟨by simp only [List.length_replicate]; omega, by simp [ahead]⟩
          · exact ⟨h0, by simp [ahead]⟩
        case h_3 => split at e <;> cases e <;> exact ⟨h0, by simp [ahead, hp]⟩
        case h_4 => split at e <;> cases e <;> exact ⟨h0, by simp [ahead]⟩
        case h_5 => cases e; exact ⟨h0, by simp [ahead]⟩
        case h_6 => cases e; exact ⟨h0, by simp [ahead]⟩
        case h_7 =>
          split at e <;> cases e
          · exact ⟨by simp only [List.length_map, List.length_take]; omega, by simp [ahead]⟩
          · exact ⟨by simp only [List.length_replicate]; omega, by simp [ahead]⟩
        case h_8 =>
          split at e
          · cases e; exact ⟨h0, by simp [hp]⟩
          · split at e <;> cases e <;> exact ⟨h0, by simp [hp]⟩
        case h_9 => cases e; exact ⟨h0, by simp [hp]⟩
        case h_10 => cases e; exact ⟨h0, by simp [hp]⟩
        case h_11 => cases e; exact ⟨by simp only [List.length_replicate]; omega, by simp [ahead]⟩
        case h_12 => cases e
      · rename_i x xs hp
        have hna : ¬ ahead s.pl.pc = true := fun ha => by have := h.2 ha; rw [hp] at this; cases this
        have h0 := h.1
        rw [hp] at h0
        simp only [List.length_cons] at h0
        unfold pushNext at e
        split at e
        · obtain ⟨ch, _, rfl⟩ := Option.map_eq_some_iff.mp e
          exact ⟨h.1, h.2⟩
        · obtain ⟨ch, _, rfl⟩ := Option.map_eq_some_iff.mp e
          exact ⟨by simp only; omega, fun ha => absurd ha hna⟩
    case jumpToken => split at e <;> cases e; exact h
    case jumpWrite => cases e; exact h
    case setPlaying => cases e; exact h
    case edit => cases e; exact h
    all_goals
      obtain ⟨ch, _, rfl⟩ := Option.map_eq_some_iff.mp e
      exact h

theorem small_run {nan : β} {c : Cfg (β × β)} (as : List Act) {s s' : St β} (h : Small c s) (e : run nan c s as = some s') : Small c s' := by
  induction as generalizing s with
  | nil => cases e; exact h
  | cons a as ih =>
    simp only [run] at e
    split at e
    · rename_i t ht; exact ih (small_step h ht) e
    · cases e

/-- A song of one of the lists, waiting or streamed. `K`: how much silence may come before it. -/
def Waiting (c : Cfg (β × β)) (P : String → Prop) (K : Nat) (out0 : List (Option (β × β))) (news0 : List (Nat × String × Nat))
    (s : StreamLoop.St (β × β)) : Prop :=
  (s.news = news0 ∧ s.playing = true ∧ s.tokens = 0 ∧ Playable c s.songs ∧ (∀ x ∈ s.songs, P x) ∧
    (∃ m, m ≤ K ∧ s.out = out0 ++ List.replicate m none ∧ (ahead s.pc = true → m + c.brk ≤ K)) ∧
    match s.pc with
    | .store _ x => x ≠ "" ∧ (c.dec x).isSome ∧ P x
    | .opening x => x ≠ "" ∧ (c.dec x).isSome ∧ P x
    | .h1 _ => False
    | .h2 _ => False
    | .h3 _ => False
    | .body _ => False
    | .chk _ _ _ => False
    | _ => True) ∨
  ∃ name l m later, m ≤ K ∧ P name ∧ c.dec name = some l ∧ s.news = news0 ++ (out0.length + m, name, l.length) :: later ∧
    (∀ e ∈ later, out0.length + m + l.length ≤ e.1) ∧ Goes l (out0 ++ List.replicate m none) s

theorem news_step {c : Cfg (β × β)} {s s' : StreamLoop.St (β × β)} {a : StreamLoop.Act} (e : StreamLoop.step c s a = some s') :
    s'.news = s.news ∨ (rest s.pc = none ∧ ∃ name len, s'.news = s.news ++ [(s.out.length, name, len)]) := by
  unfold StreamLoop.step at e
  split at e
  · cases e
  · cases a <;> simp only at e
    case loop =>
      unfold loopStep at e
      split at e <;> rename_i hpc <;> (repeat' (first | split at e | (simp only at e; split at e))) <;> cases e <;>
        first | exact .inl rfl | exact .inr ⟨by rw [hpc]; rfl, _, _, rfl⟩
    case jumpToken => split at e <;> cases e; exact .inl rfl
    all_goals cases e; exact .inl rfl

theorem waiting_step {c : Cfg (β × β)} {P : String → Prop} {K : Nat} {out0 : List (Option (β × β))} {news0 : List (Nat × String × Nat)}
    {s s' : StreamLoop.St (β × β)} {a : StreamLoop.Act} (hw : Waiting c P K out0 news0 s) (ha : a ≠ .setPlaying false ∧ a ≠ .jumpToken)
    (hl : ∀ l, a = .edit l → Playable c l ∧ ∀ x ∈ l, P x) (e : StreamLoop.step c s a = some s') : Waiting c P K out0 news0 s' := by
  rcases hw with ⟨w0, w1, w2, w3, w4, ⟨m, w5, w6, w7⟩, w8⟩ | ⟨name, l, m, later, w1, w2, w3, w4, w4', w5⟩
  · have e0 := e
    unfold StreamLoop.step at e
    split at e
    · cases e
    · cases a <;> simp only at e
      case loop =>
        unfold loopStep at e
        split at e <;> rename_i hpc <;> rw [hpc] at w7 w8 <;> simp only at w8
        case h_1 =>
          have hlen : ¬ s.songs.length = 0 := fun hx => w3.1 (List.eq_nil_of_length_eq_zero hx)
          rw [if_neg hlen] at e
          simp only at e
          split at e
          · rename_i song hg
            cases e
            have hmem : song ∈ s.songs := by
              unfold Playlist.goGet at hg
              split at hg
              · cases hg
              · split at hg
                · rename_i hv; cases hg; exact List.mem_of_getElem? hv
                · cases hg
            exact .inl ⟨w0, w1, w2, w3, w4, ⟨m, w5, w6, by simp [ahead]⟩, (w3.2 _ hmem).1, (w3.2 _ hmem).2, w4 _ hmem⟩
          · cases e
            exact .inl ⟨w0, w1, w2, w3, w4, ⟨m, w5, w6, by simp [ahead]⟩, trivial⟩
        case h_2 =>
          rw [if_neg w8.1] at e
          cases e
          exact .inl ⟨w0, w1, w2, w3, w4, ⟨m, w5, w6, by simp [ahead]⟩, w8⟩
        case h_3 =>
          rename_i song
          cases hd : c.dec song with
          | none => rw [hd] at w8; simp at w8
          | some l =>
            rw [hd] at e
            cases e
            refine .inr ⟨song, l, m, [], w5, w8.2.2, hd, ?_, by simp, w1, w2, .inl ⟨[], l, rfl, rfl, by simp [w6], by simp⟩⟩
            simp [w6, w0]
        case h_9 => cases e; exact .inl ⟨w0, w1, w2, w3, w4, ⟨m, w5, w6, fun _ => w7 rfl⟩, trivial⟩
        case h_10 =>
          rename_i skip v
          cases e
          refine .inl ⟨w0, w1, w2, w3, w4, ⟨m, w5, w6, fun _ => w7 rfl⟩, ?_⟩
          cases skip <;> simp
        case h_11 =>
          cases e
          have := w7 rfl
          exact .inl ⟨w0, w1, w2, w3, w4, ⟨m + c.brk, this, by rw [w6, List.append_assoc, List.replicate_append_replicate], by simp [ahead]⟩, trivial⟩
        case h_12 => cases e
      case jumpToken => exact absurd rfl ha.2
      case setPlaying b =>
        cases e
        cases b
        · exact absurd rfl ha.1
        · exact .inl ⟨w0, rfl, w2, w3, w4, ⟨m, w5, w6, w7⟩, w8⟩
      case edit l =>
        cases e
        exact .inl ⟨w0, w1, w2, (hl l rfl).1, (hl l rfl).2, ⟨m, w5, w6, w7⟩, w8⟩
      case jumpWrite => cases e; exact .inl ⟨w0, w1, w2, w3, w4, ⟨m, w5, w6, w7⟩, w8⟩
  · have g := goes_step w5 ha e
    rcases news_step e with hn | ⟨hr, nm, ln, hn⟩
    · exact .inr ⟨name, l, m, later, w1, w2, w3, hn.trans w4, w4', g⟩
    · refine .inr ⟨name, l, m, later ++ [(s.out.length, nm, ln)], w1, w2, w3, by rw [hn, w4]; simp, ?_, g⟩
      intro x hx
      rcases List.mem_append.mp hx with hx | hx
      · exact w4' x hx
      · simp only [List.mem_singleton] at hx
        subst hx
        rcases w5.2.2 with ⟨_, rem, h1, _⟩ | h1
        · rw [hr] at h1; cases h1
        · have := h1.length_le
          simpa [Nat.add_assoc] using this

theorem edits {as : List Act} {bs : List StreamLoop.Act} (h : bs.filterMap commandOf = as.filterMap command) {l : List String}
    (hb : .edit l ∈ bs) : .edit l ∈ as := by
  have : StreamLoop.Act.edit l ∈ bs.filterMap commandOf := List.mem_filterMap.mpr ⟨_, hb, rfl⟩
  rw [h] at this
  obtain ⟨a, h1, h2⟩ := List.mem_filterMap.mp this
  cases a <;> simp [command] at h2
  subst h2
  exact h1

/-- C132, in samples: at some moment no song is being streamed, the playlist has songs and is playing, and no jump is under way. As
long as it is not paused, jumped in or emptied: beyond the samples already read or being read, at most the channels' capacity and 32768
samples (or a break, if that is longer) are silence. Then comes a song of the playlist, announced with its exact first sample `k`, sample by
sample to its end. -/
theorem C132_stream (nan : β) (c : Cfg (β × β)) (cap : Nat) (songs : List String) (as as' : List Act) (s s' : St β)
    (h : run nan c (init cap songs) as = some s) (hs : Between s) (hp : s.pl.playing = true) (ht : s.pl.tokens = 0)
    (hq : Playable c s.pl.songs) (h' : run nan c s as' = some s') (hr : .setPlaying false ∉ as') (hj : .jumpToken ∉ as')
    (he : ∀ l, .edit l ∈ as' → Playable c l) :
    ∃ k, (stream s).length ≤ k ∧ k ≤ s.chans.readIdx + asked s + cap + max 32768 c.brk ∧
      (∀ i x, (stream s).length ≤ i → i < k → (stream s')[i]? = some x → x = none) ∧
      ((stream s').length ≤ k ∨ ∃ name l, (name ∈ s.pl.songs ∨ ∃ ns, .edit ns ∈ as' ∧ name ∈ ns) ∧ c.dec name = some l ∧
        (∃ later, s'.pl.news = s.pl.news ++ (k, name, l.length) :: later ∧ ∀ e ∈ later, k + l.length ≤ e.1) ∧
        ∀ i x, l[i]? = some x → k + i < (stream s').length → (stream s')[k + i]? = some (some x)) := by
  have h1 := (run_sim as (inv_init nan cap songs) h).1
  obtain ⟨h2, bs, h3, h4⟩ := run_sim as' h1 h'
  have hsm := small_run as (s := init cap songs) (c := c) ⟨by simp [init], by simp [init, ahead]⟩ h
  have hld := lead h1
  have hW0 : Waiting c (fun x => x ∈ s.pl.songs ∨ ∃ ns, Act.edit ns ∈ as' ∧ x ∈ ns) (if ahead s.pl.pc then c.brk else 0) (stream s) s.pl.news (whole s) := by
    refine .inl ⟨rfl, hp, ht, hq, fun x hx => .inl hx, ⟨0, by omega, by simp [whole], ?_⟩, ?_⟩
    · intro ha
      have : (whole s).pc = s.pl.pc := rfl
      rw [this] at ha
      simp [ha]
    · have : (whole s).pc = s.pl.pc := rfl
      rw [this]
      unfold Between at hs
      split at hs <;> simp_all
  have hbound : (stream s).length + (if ahead s.pl.pc then c.brk else 0) ≤ s.chans.readIdx + asked s + cap + max 32768 c.brk := by
    simp only [stream, List.length_append]
    have e1 : s.push.length ≤ max 32768 c.brk := by
      have := hsm.1
      rwa [noSongNan] at this
    split
    · rename_i ha
      have e2 := hsm.2 ha
      rw [e2]; simp; omega
    · omega
  have hW : Waiting c (fun x => x ∈ s.pl.songs ∨ ∃ ns, Act.edit ns ∈ as' ∧ x ∈ ns) (if ahead s.pl.pc then c.brk else 0) (stream s) s.pl.news (whole s') :=
    StreamLoop.run_induct (ok := fun a => a ∈ bs) (fun s1 s2 a ho hi hst => waiting_step hi
      ⟨fun hx => noResume h4 hr (hx ▸ ho), fun hx => noToken h4 hj (hx ▸ ho)⟩
      (fun l hx => ⟨he l (edits h4 (hx ▸ ho)), fun x hxl => .inr ⟨l, edits h4 (hx ▸ ho), hxl⟩⟩) hst)
      (fun _ h => h) hW0 h3
  have hw : (whole s').out = stream s' := rfl
  rcases hW with ⟨_, w1, w2, w3, w4, ⟨m, w5, w6, w7⟩, w8⟩ | ⟨name, l, m, later, w1, w2, w3, w4, w4', w5⟩
  · rw [hw] at w6
    refine ⟨(stream s).length + m, by omega, by omega, ?_, .inl (by rw [w6]; simp)⟩
    intro i x g1 g2 g3
    rw [w6, List.getElem?_append_right g1, List.getElem?_replicate] at g3
    split at g3 <;> cases g3
    rfl
  · obtain ⟨_, _, w5⟩ := w5
    rw [hw] at w5
    have hpre : ∃ Y, stream s' = stream s ++ List.replicate m none ++ Y ∧
        ∀ i x, l[i]? = some x → i < Y.length → Y[i]? = some (some x) := by
      rcases w5 with ⟨pre, rem, g1, g2, g3, g4⟩ | ⟨Y, hY⟩
      · refine ⟨pre.map some, g3, ?_⟩
        intro i x hx hi
        simp at hi
        rw [g2, List.getElem?_append_left hi] at hx
        simp [hx]
      · refine ⟨l.map some ++ Y, by rw [← hY]; simp, ?_⟩
        intro i x hx hi
        have hi : i < l.length := by
          refine Classical.byContradiction fun hn => ?_
          rw [List.getElem?_eq_none (by omega)] at hx; cases hx
        rw [List.getElem?_append_left (by simpa using hi)]
        simp [hx]
    obtain ⟨Y, hY, hY2⟩ := hpre
    refine ⟨(stream s).length + m, by omega, by omega, ?_, .inr ⟨name, l, w2, w3, ⟨later, w4, w4'⟩, ?_⟩⟩
    · intro i x g1 g2 g3
      rw [hY, List.append_assoc, List.getElem?_append_right g1, List.getElem?_append_left (by simp; omega), List.getElem?_replicate] at g3
      split at g3 <;> cases g3
      rfl
    · intro i x hx hlt
      rw [hY] at hlt ⊢
      rw [List.getElem?_append_right (by simp)]
      simp only [List.length_append, List.length_replicate] at hlt ⊢
      rw [Nat.add_sub_cancel_left]
      exact hY2 i x hx (by omega)

/-- C132, waiting: while the playlist is empty and no song is being streamed, whatever is done but queueing, it stays so; and it is so when
the server starts. -/
theorem C132_idle (nan : β) (c : Cfg (β × β)) (as : List Act) (s s' : St β) (hs : Between s) (hq : s.pl.songs = [])
    (h : run nan c s as = some s') (he : ∀ l, .edit l ∉ as) : Between s' ∧ s'.pl.songs = [] := by
  induction as generalizing s with
  | nil => cases h; exact ⟨hs, hq⟩
  | cons a as ih =>
    simp only [run] at h
    split at h
    · rename_i t e
      refine ih t ?_ ?_ h (fun l hl => he l (List.mem_cons_of_mem _ hl))
      all_goals
        unfold step at e
        split at e
        · cases e
        · cases a <;> simp only at e
          case loop =>
            split at e
            · unfold PlaylistRun.control at e
              unfold Between at hs
              split at hs <;> rename_i hpc <;> simp only [hpc] at e
              all_goals first
                | contradiction
                | (rw [if_pos (by simp [hq])] at e; cases e; first | exact hq | simp [Between, hpc])
                | (cases e; first | exact hq | trivial | (rename_i sk _; cases sk <;> trivial))
            · unfold pushNext at e
              split at e <;>
              · obtain ⟨ch, _, rfl⟩ := Option.map_eq_some_iff.mp e
                first | exact hq | exact hs
          case jumpToken => split at e <;> cases e <;> first | exact hq | exact hs
          case jumpWrite => cases e; first | exact hq | exact hs
          case setPlaying => cases e; first | exact hq | exact hs
          case edit l => exact absurd (List.mem_cons_self) (he l)
          all_goals
            obtain ⟨ch, _, rfl⟩ := Option.map_eq_some_iff.mp e
            first | exact hq | exact hs
    · cases h

/-- C132, in time: at time `T` of the server's clock no song is being streamed, the playlist has songs and is playing, and no jump is under
way; it is not paused, jumped in or emptied afterwards. There is a sample number `k`, due at most the stream delay, the time the channels hold
and the time of 32768 samples (or of a break, if that is longer) after `T`, such that in all chunks sent, then or later, what follows the
samples already begun is silence up to `k`, and from `k` on a song of the playlist, from its first sample to its end. `t0 - start`, the
time between reading the clock and creating the ticker, is gained. -/
theorem C132_heard (nan : β) (c : Cfg (β × β)) (cap : Nat) (songs : List String) (as as' : List Act) (s s' : St β)
    (start t0 delay T : Int) (size rate : Nat) (ds : List Int) (hP : 0 < chunkTime size rate) (hd : ∀ d ∈ ds, 0 ≤ d)
    (h : run nan c (init cap songs) as = some s) (h' : run nan c s as' = some s') (hz : Asks size as) (hz' : Asks size as')
    (hT : At (chunkTime size rate) t0 T ds s) (hs : Between s) (hp : s.pl.playing = true) (ht : s.pl.tokens = 0)
    (hq : Playable c s.pl.songs) (hr : .setPlaying false ∉ as') (hj : .jumpToken ∉ as') (he : ∀ l, .edit l ∈ as' → Playable c l) :
    ∃ k, (∀ n j, j < size → n * size + j ≤ k →
        start + delay + n * chunkTime size rate + samplesDuration rate j ≤
          T + delay - (t0 - start) + samplesDuration rate (cap + max 32768 c.brk)) ∧
      (∀ n q i j, (messages start delay size rate s'.chans.chunks)[n]? = some (q, i) → j < q.low.length →
        (stream s).length ≤ n * size + j → n * size + j < k → q.low[j]? = some nan ∧ q.high[j]? = some nan) ∧
      ((∀ n q i j, (messages start delay size rate s'.chans.chunks)[n]? = some (q, i) → j < q.low.length → n * size + j < k) ∨
        ∃ name l, (name ∈ s.pl.songs ∨ ∃ ns, .edit ns ∈ as' ∧ name ∈ ns) ∧ c.dec name = some l ∧
          (∃ later, s'.pl.news = s.pl.news ++ (k, name, l.length) :: later ∧ ∀ e ∈ later, k + l.length ≤ e.1) ∧
          ∀ n q i j x, (messages start delay size rate s'.chans.chunks)[n]? = some (q, i) → j < q.low.length → k ≤ n * size + j →
            l[n * size + j - k]? = some x → q.low[j]? = some x.1 ∧ q.high[j]? = some x.2) := by
  have h1 := (run_sim as (inv_init nan cap songs) h).1
  have h2 := (run_sim as' h1 h').1
  have z1 := sized_run as (s := init cap songs) ⟨by simp [init, Fill.init], by simp [init, Fill.init]⟩ hz h
  have z2 := sized_run as' z1 hz' h'
  obtain ⟨k, k1, k2, k3, k4⟩ := C132_stream nan c cap songs as as' s s' h hs hp ht hq h' hr hj he
  rw [read_begun h1 z1] at k2
  have get : ∀ n q i j, (messages start delay size rate s'.chans.chunks)[n]? = some (q, i) → j < q.low.length →
      ∃ x, (stream s')[n * size + j]? = some x ∧ q.low[j]? = some (value nan x).1 ∧ q.high[j]? = some (value nan x).2 := by
    intro n q i j hm hj
    obtain ⟨y, x1, x2, x3, x4⟩ := message hm
    obtain ⟨fi, lo, hi⟩ := y
    simp only at x3 x4
    have hxi := windows_index _ _ (chunks_windows h2) z2.1 n _ x1
    simp only [Nat.zero_add] at hxi
    have hmem : (fi, lo, hi) ∈ s'.chans.chunks := List.mem_of_getElem? x1
    rw [x3] at hj ⊢
    rw [x4]
    obtain ⟨g1, g2⟩ := windows_get (chunks_windows h2) hmem hj
    rw [hxi] at g1 g2
    have hlt : n * size + j < (stream s').length := by
      have : (lo[j]?).isSome := by simp [hj]
      rw [g1] at this
      simpa using this
    refine ⟨(stream s')[n * size + j], List.getElem?_eq_getElem hlt, ?_, ?_⟩
    · rw [g1]; simp [hlt]
    · rw [g2]; simp [hlt]
  refine ⟨k, ?_, ?_, ?_⟩
  · intro n j hj hk
    have := due_le start t0 delay T size rate (cap + max 32768 c.brk) (begun s) n j (begun_le hP hd hT) hj (by omega)
    omega
  · intro n q i j hm hj g1 g2
    obtain ⟨x, x1, x2, x3⟩ := get n q i j hm hj
    have := k3 _ x g1 g2 x1
    subst this
    exact ⟨x2, x3⟩
  · rcases k4 with k4 | ⟨name, l, k5, k6, k7, k8⟩
    · left
      intro n q i j hm hj
      obtain ⟨x, x1, _, _⟩ := get n q i j hm hj
      have : n * size + j < (stream s').length := by
        refine Classical.byContradiction fun hn => ?_
        rw [List.getElem?_eq_none (by omega)] at x1; cases x1
      omega
    · refine .inr ⟨name, l, k5, k6, k7, ?_⟩
      intro n q i j x hm hj g1 hx
      obtain ⟨y, x1, x2, x3⟩ := get n q i j hm hj
      have hlt : n * size + j < (stream s').length := by
        refine Classical.byContradiction fun hn => ?_
        rw [List.getElem?_eq_none (by omega)] at x1; cases x1
      have := k8 _ x hx (by omega)
      rw [show k + (n * size + j - k) = n * size + j by omega, x1] at this
      simp only [Option.some.injEq] at this
      subst this
      exact ⟨x2, x3⟩

/-! The hypotheses can be met. -/

/-- The server has been started, is set to play and has begun to push silence; then `a` is queued. -/
def exState : Option (St Nat) := run 0 exCfg (init 2 []) [.loop, .setPlaying true, .loop, .loop, .edit ["a"]]

theorem ex_queued : exState.map (fun s => (s.pl.playing, s.pl.tokens, s.pl.songs, s.push.length, begun s)) = some (true, 0, ["a"], 32767, 0) ∧
    (∀ s, exState = some s → Between s ∧ Playable exCfg s.pl.songs) := by
  have h : exState.isSome := by decide +kernel
  constructor
  · decide +kernel
  · intro s hs
    constructor
    · have : exState.map (fun s => (match s.pl.pc with | .top => true | _ => false)) = some true := by decide +kernel
      rw [hs] at this
      simp only [Option.map_some, Option.some.injEq] at this
      unfold Between
      split at this
      · rename_i h; rw [h]; trivial
      · cases this
    · have : exState.map (fun s => s.pl.songs) = some ["a"] := by decide +kernel
      rw [hs] at this
      simp only [Option.map_some, Option.some.injEq] at this
      rw [this]
      refine ⟨by simp, ?_⟩
      intro n hn
      simp only [List.mem_singleton] at hn
      subst hn
      exact ⟨by decide, by decide⟩

/-- A playlist with one song repeats it: after the break comes the song again. The state between has both parts: the break pushed, the song announced. -/
theorem ex_again : (run 0 exCfg (init 20 ["a"]) (.setPlaying true :: List.replicate 24 .loop)).map
      (fun s => (s.pl.out, s.pl.news)) =
    some ([some (1, 2), some (3, 4), some (5, 6), none, none], [(0, "a", 3), (5, "a", 3)]) := by
  decide +kernel

end MS.Queued
