import Verif.Props.EndToEnd
import Verif.Props.ServerState
/-!
# Property C91: an infoer that connects later shows the same as one connected from the start

Server (`MS.Server`) and two infoers (`MS.Infoer`): one has received all announcements, the other was sent what the
server replays to a new client and all later announcements.
-/
set_option linter.unusedVariables false
namespace MS.LateJoin
open MS.Infoer MS.Server

variable {σ : Type}

/-! ## Specification -/

/-- An infoer that has received and been asked `evs` (in this order, in any order of the announcements) is asked at `now`
and shows `o`. Chunks have different indices, clock and shown positions do not run backwards (see C44). -/
def Shows (rate : Nat) (evs : List (Ev σ)) (now : Int) (o : PlaybackInfo σ) : Prop :=
  ∃ outs st, Run rate ⟨[], [], []⟩ (evs ++ [.query now]) (outs ++ [o]) st ∧
    (chunksOf evs).Pairwise (fun a b => a.startIndex ≠ b.startIndex) ∧
    (queriesOf evs ++ [now]).Pairwise (· ≤ ·) ∧
    (∀ x ∈ outs ++ [o], 0 ≤ x.sample ∧ x.sample < 2 ^ 63) ∧
    (((outs ++ [o]).map (·.sample)).filter (· ≠ 0)).Pairwise (· ≤ ·)

/-- The songs and toggles among the messages a new client is sent. -/
def sentSongs (l : List (Sent σ)) : List (Song σ) := l.filterMap (fun | .song s => some s | _ => none)
def sentPauses (l : List (Sent σ)) : List Toggle := l.filterMap (fun | .pause t => some t | _ => none)

/-- `evs` of an infoer that was connected all the time: it has received all announcements. -/
def FromStart (h later : List (Op σ)) (evs : List (Ev σ)) : Prop :=
  (Infoer.songsOf evs).Perm (Server.songsOf (h ++ later)) ∧ (pausesOf evs).Perm (togglesOf (h ++ later))

/-- `evs` of an infoer that subscribed after `h`: it has received what the server replays then, and the announcements
of `later`. -/
def Joined (h later : List (Op σ)) (evs : List (Ev σ)) : Prop :=
  ∃ ss, applyAll Ss.init h = .ok ss ∧
    (Infoer.songsOf evs).Perm (sentSongs (clientHandler META ss) ++ Server.songsOf later) ∧
    (pausesOf evs).Perm (sentPauses (clientHandler META ss) ++ togglesOf later)

/-! ## Proofs -/

theorem songs_append (a b : List (Op σ)) : Server.songsOf (a ++ b) = Server.songsOf a ++ Server.songsOf b :=
  List.filterMap_append
theorem toggles_append (a b : List (Op σ)) : togglesOf (a ++ b) = togglesOf a ++ togglesOf b := List.filterMap_append

theorem sent_meta (ss : Ss σ) :
    sentSongs (clientHandler META ss) = ss.newest.toList ∧ sentPauses (clientHandler META ss) = ss.pauses := by
  have h : clientHandler META ss = sendVolume ss ++ sendNewestSong ss ++ sendPauses ss := by
    simp [clientHandler, META, AUDIO]
  rw [h]
  simp only [sentSongs, sentPauses, List.filterMap_append, sendVolume, sendPauses, List.filterMap_map]
  constructor
  · cases hn : ss.newest <;> simp [sendNewestSong, hn, List.filterMap_eq_nil_iff]
  · cases hn : ss.newest <;> simp [sendNewestSong, hn] <;> exact List.filterMap_some

/-- What each of them has, in order, and shows. -/
theorem shows_spec {rate : Nat} {evs : List (Ev σ)} {now : Int} {o : PlaybackInfo σ} (h : Shows rate evs now o)
    {S : List (Song σ)} {T : List Toggle} (hS : (Infoer.songsOf evs).Perm S) (hT : (pausesOf evs).Perm T)
    (sS : S.Pairwise (fun a b => a.startIndex < b.startIndex)) (sT : T.Pairwise (fun a b => a.toggleIndex < b.toggleIndex)) :
    o = idealAt rate o.sample S T ∧ 0 ≤ o.sample ∧ o.sample < 2 ^ 63 := by
  obtain ⟨outs, st, hr, hdc, hq, hb, hfw⟩ := h
  have ds : (Infoer.songsOf evs).Pairwise (fun a b => a.startIndex ≠ b.startIndex) :=
    (hS.pairwise_iff (fun hxy => Ne.symm hxy)).2 (sS.imp (fun h => Nat.ne_of_lt h))
  have dp : (pausesOf evs).Pairwise (fun a b => a.toggleIndex ≠ b.toggleIndex) :=
    (hT.pairwise_iff (fun hxy => Ne.symm hxy)).2 (sT.imp (fun h => Nat.ne_of_lt h))
  obtain ⟨full, f1, f2, f3, f4, ho, -⟩ := EndToEnd.last_display rate evs now st outs o ds hdc dp hq hr hb hfw
  have e1 : full.songs = S := strict_eq f2 sS (fun x => (f1.trans hS).mem_iff)
  have e2 : full.pauses = T := strict_eq f4 sT (fun x => (f3.trans hT).mem_iff)
  have hsm : o.sample = idealSample rate now full.chunks := by
    rw [ho]; simp only [ideal, idealAt]; split <;> rfl
  refine ⟨?_, hb o (by simp)⟩
  rw [hsm]
  rw [ho, ideal, e1, e2]

/-- Songs before the last one that has started do not matter. -/
theorem currentSong_suffix (P Q : List (Song σ)) (s : Song σ) (n : Int) (h : (s.startIndex : Int) < n) :
    currentSong n (P ++ s :: Q) = currentSong n (s :: Q) := by
  have e : (P ++ s :: Q).reverse = (s :: Q).reverse ++ P.reverse := by simp
  simp only [currentSong]
  rw [e, List.find?_append]
  cases hf : (s :: Q).reverse.find? (fun x => decide ((x.startIndex : Int) < n)) with
  | some x => rfl
  | none =>
    rw [List.find?_eq_none] at hf
    exact absurd h (by simpa using hf s (by simp))

theorem idealAt_congr {rate : Nat} {n : Int} {S S' : List (Song σ)} {T T' : List Toggle}
    (h1 : currentSong n S = currentSong n S')
    (h2 : pausesInCurrentSong n (songStart (currentSong n S')) T = pausesInCurrentSong n (songStart (currentSong n S')) T') :
    idealAt rate n S T = idealAt rate n S' T' := by
  simp only [idealAt, h1, h2]

/-- What the joined infoer has been sent. -/
theorem joined_spec {h later : List (Op σ)} {evs : List (Ev σ)} (hj : Joined h later evs)
    (hs : (Server.songsOf (h ++ later)).Pairwise (fun a b => a.startIndex < b.startIndex)) :
    ∃ kept, Retains (Server.songsOf h).getLast? (togglesOf h) kept ∧
      (Infoer.songsOf evs).Perm ((Server.songsOf h).getLast?.toList ++ Server.songsOf later) ∧
      (pausesOf evs).Perm (kept ++ togglesOf later) := by
  obtain ⟨ss, e, p1, p2⟩ := hj
  rw [songs_append] at hs
  have hsh : (Server.songsOf h).Pairwise (fun a b => a.startIndex ≤ b.startIndex) :=
    (List.pairwise_append.1 hs).1.imp (fun h => Nat.le_of_lt h)
  obtain ⟨ss', e1, e2, e3, e4⟩ := applyAll_spec h (Ss.init (σ := σ)) [] (.inl rfl) (by simpa [Ss.init] using hsh)
  rw [e] at e1
  injection e1 with e1
  subst e1
  obtain ⟨m1, m2⟩ := sent_meta ss
  have e3' : ss.newest = (Server.songsOf h).getLast? := by rw [e3]; simp [Ss.init]
  refine ⟨ss.pauses, ?_, ?_, ?_⟩
  · rw [← e3']; simpa using e4
  · rw [← e3', ← m1]; exact p1
  · rw [← m2]; exact p2

/-- C91, the part that holds: once the song that was the newest when the second infoer subscribed has begun to play, the
two infoers, at the same position, show the same: song, time in song, length, progress, paused time and play state.
For every history before and after, every order in which each of them received its messages, and all queries made
before. Missing from the full property: positions before the start of that song (`C91_song_missing`). -/
theorem C91_same_display_partial (h later : List (Op σ))
    (hs : (Server.songsOf (h ++ later)).Pairwise (fun a b => a.startIndex < b.startIndex))
    (ht : (togglesOf (h ++ later)).Pairwise (fun a b => a.toggleIndex < b.toggleIndex))
    (newest : Song σ) (hn : (Server.songsOf h).getLast? = some newest)
    (rate : Nat) (evs evs' : List (Ev σ)) (now now' : Int) (o o' : PlaybackInfo σ)
    (hF : FromStart h later evs) (hshow : Shows rate evs now o)
    (hJ : Joined h later evs') (hshow' : Shows rate evs' now' o')
    (hpos : o'.sample = o.sample) (hstart : (newest.startIndex : Int) < o.sample) : o' = o := by
  obtain ⟨kept, hk, j1, j2⟩ := joined_spec hJ hs
  obtain ⟨P, hP⟩ : ∃ P, Server.songsOf h = P ++ [newest] := List.getLast?_eq_some_iff.1 hn
  have hs' := hs
  rw [songs_append, hP] at hs'
  have sS : ((Server.songsOf h).getLast?.toList ++ Server.songsOf later).Pairwise (fun a b => a.startIndex < b.startIndex) := by
    rw [hn]
    exact hs'.sublist (by simp)
  have sT : (kept ++ togglesOf later).Pairwise (fun a b => a.toggleIndex < b.toggleIndex) := by
    rw [toggles_append] at ht
    rcases hk with e | ⟨_, A, r, B, _, g1, g2, _⟩
    · rw [e]; exact ht
    · rw [g2]; rw [g1] at ht; exact ht.sublist (by simp)
  obtain ⟨a1, a2, a3⟩ := shows_spec hshow hF.1 hF.2 hs ht
  obtain ⟨b1, -, -⟩ := shows_spec hshow' j1 j2 sS sT
  rw [b1, a1, hpos]
  have hcur : currentSong o.sample ((Server.songsOf h).getLast?.toList ++ Server.songsOf later) =
      currentSong o.sample (Server.songsOf (h ++ later)) := by
    rw [hn, songs_append, hP]
    have := currentSong_suffix P (Server.songsOf later) newest o.sample hstart
    simpa using this.symm
  refine idealAt_congr hcur ?_
  obtain ⟨n, hnn⟩ := Int.eq_ofNat_of_zero_le a2
  rw [hnn] at hstart a3 ⊢
  have hmem : newest ∈ Server.songsOf (h ++ later) := by rw [songs_append, hP]; simp
  have hle := start_le_current hs hmem hstart
  have hlt : songStart (currentSong (n : Int) (Server.songsOf (h ++ later))) < n := by
    cases hc : currentSong (n : Int) (Server.songsOf (h ++ later)) with
    | none => simp [songStart]; omega
    | some x =>
      simp only [currentSong] at hc
      have := List.find?_some hc
      simpa [songStart] using this
  have := retains_same hk (togglesOf later) (by rw [← toggles_append]; exact chrono_of_lt ht) newest hn _ n hle hlt (by omega)
  rw [toggles_append]
  exact this

/-- C91 fails before that: while the newest announced song has not begun to play (songs are announced when the server
begins to read them, long before they are due), the infoer that connected late shows no song and no time, although one
is playing and the other infoer shows it. -/
theorem C91_song_missing (h later : List (Op σ))
    (hs : (Server.songsOf (h ++ later)).Pairwise (fun a b => a.startIndex < b.startIndex))
    (ht : (togglesOf (h ++ later)).Pairwise (fun a b => a.toggleIndex < b.toggleIndex))
    (newest : Song σ) (hn : (Server.songsOf h).getLast? = some newest)
    (rate : Nat) (evs evs' : List (Ev σ)) (now now' : Int) (o o' : PlaybackInfo σ)
    (hF : FromStart h later evs) (hshow : Shows rate evs now o)
    (hJ : Joined h later evs') (hshow' : Shows rate evs' now' o')
    (hpos : o'.sample = o.sample) (hstart : o.sample ≤ newest.startIndex) :
    o'.song = none ∧ o'.timeInSong = 0 ∧ o'.songLength = 0 ∧
      ((∃ x ∈ Server.songsOf h, (x.startIndex : Int) < o.sample) → ∃ x ∈ Server.songsOf h, o.song = some x) := by
  obtain ⟨kept, hk, j1, j2⟩ := joined_spec hJ hs
  obtain ⟨P, hP⟩ : ∃ P, Server.songsOf h = P ++ [newest] := List.getLast?_eq_some_iff.1 hn
  have hs' := hs
  rw [songs_append, hP] at hs'
  have sS : ((Server.songsOf h).getLast?.toList ++ Server.songsOf later).Pairwise (fun a b => a.startIndex < b.startIndex) := by
    rw [hn]
    exact hs'.sublist (by simp)
  have sT : (kept ++ togglesOf later).Pairwise (fun a b => a.toggleIndex < b.toggleIndex) := by
    rw [toggles_append] at ht
    rcases hk with e | ⟨_, A, r, B, _, g1, g2, _⟩
    · rw [e]; exact ht
    · rw [g2]; rw [g1] at ht; exact ht.sublist (by simp)
  obtain ⟨a1, a2, a3⟩ := shows_spec hshow hF.1 hF.2 hs ht
  obtain ⟨b1, -, -⟩ := shows_spec hshow' j1 j2 sS sT
  have hafter : ∀ x ∈ Server.songsOf later, newest.startIndex < x.startIndex := by
    intro x hx
    rw [List.append_assoc, List.singleton_append] at hs'
    exact (List.pairwise_cons.1 (List.pairwise_append.1 hs').2.1).1 x hx
  have hnone : currentSong o'.sample ((Server.songsOf h).getLast?.toList ++ Server.songsOf later) = none := by
    rw [hn, hpos]
    simp only [currentSong, List.find?_eq_none, List.mem_reverse]
    intro x hx
    simp only [Option.toList_some, List.singleton_append, List.mem_cons] at hx
    rcases hx with rfl | hx
    · simp; omega
    · have := hafter x hx; simp; omega
  refine ⟨?_, ?_, ?_, ?_⟩
  · rw [b1]; simp [idealAt, hnone, songStart]
  · rw [b1]; simp [idealAt, hnone, songStart]
  · rw [b1]; simp [idealAt, hnone, songStart]
  · rintro ⟨x, hx, hlt⟩
    have hsong : o.song = currentSong o.sample (Server.songsOf (h ++ later)) := by
      rw [a1]
      simp only [idealAt]
      split <;> simp
    rw [hsong]
    cases hc : currentSong o.sample (Server.songsOf (h ++ later)) with
    | none =>
      simp only [currentSong, List.find?_eq_none, List.mem_reverse] at hc
      exact absurd hlt (by simpa using hc x (by rw [songs_append]; simp [hx]))
    | some y =>
      refine ⟨y, ?_, rfl⟩
      simp only [currentSong] at hc
      have h1 := List.find?_some hc
      have h2 := List.mem_of_find?_eq_some hc
      simp only [List.mem_reverse, songs_append, List.mem_append] at h2
      rcases h2 with h2 | h2
      · exact h2
      · have := hafter y h2
        simp at h1
        omega

/-! ## The position -/

/-- C91: the position. All chunks are those of the server's schedule; chunk `k` is playing. The infoer that has it shows
position `x`; one that has only chunks from `m` on (sent after it subscribed, not yet due) shows `y`. Then `y` is `x` or
more, by at most two samples as long as `m - k` chunks are less than 10^9 / rate (22675 at 44100 Hz). -/
theorem C91_position (rate size : Nat) (hr : 0 < rate) (hsz : 0 < size) (start : Int) (s0 s t0 t : State σ)
    (hs0 : s0.chunks = []) (ht0 : t0.chunks = []) (arrived arrived' : List Chunk)
    (ha : ChunksArrive s0 arrived s) (ha' : ChunksArrive t0 arrived' t)
    (hsched : ∀ c ∈ arrived, ∃ n, c = scheduled start (chunkTime rate size) size n)
    (k : Nat) (hk : scheduled start (chunkTime rate size) size k ∈ arrived) (now : Int)
    (h1 : start + k * chunkTime rate size < now) (h2 : now ≤ start + (k + 1) * chunkTime rate size)
    (m : Nat) (hkm : k < m) (hm : scheduled start (chunkTime rate size) size m ∈ arrived')
    (hsched' : ∀ c ∈ arrived', ∃ n, m ≤ n ∧ c = scheduled start (chunkTime rate size) size n) :
    (info rate now s).1.sample ≤ (info rate now t).1.sample ∧
      ((info rate now t).1.sample - (info rate now s).1.sample - 2) * second < ((m : Int) - k) * rate ∧
      (((m : Int) - k) * rate ≤ second → (info rate now t).1.sample ≤ (info rate now s).1.sample + 2) := by
  have hx := C41_position rate size hr hsz start s0 s hs0 arrived ha hsched k hk now h1 h2
  obtain ⟨hp, hsort⟩ := chunksArrive_spec ha' (by rw [ht0]; exact List.Pairwise.nil)
  rw [ht0, List.nil_append] at hp
  obtain ⟨c1, c2, c3⟩ := chunkTime_bounds rate size hr
  have hsample : (info rate now t).1.sample = sampleAt rate now (removeOldChunks rate now t.chunks) := by
    simp only [info]; split <;> rfl
  have hend := scheduled_end rate size start
  generalize hT : chunkTime rate size = T at *
  have hTpos : 0 < T := by
    rw [Int.add_mul] at h2; omega
  have hmk : (k + 1 : Int) * T ≤ m * T := Int.mul_le_mul_of_nonneg_right (by omega) c3
  -- the first chunk is m
  have hfind : t.chunks.find? (fun c => decide (now ≤ c.endTime rate)) = some (scheduled start T size m) := by
    cases hc : t.chunks with
    | nil => rw [hc] at hp; have := hp.symm.subset hm; simp at this
    | cons c cs =>
      rw [hc] at hp hsort
      obtain ⟨n, hmn, rfl⟩ := hsched' c (hp.subset (by simp))
      have hn : n = m := by
        rcases List.mem_cons.1 (hp.symm.subset hm) with e | e
        · have : m * size = n * size := by simpa [scheduled] using congrArg Chunk.startIndex e
          exact (Nat.eq_of_mul_eq_mul_right hsz this).symm
        · have := (List.pairwise_cons.1 hsort).1 _ e
          simp only [scheduled] at this
          have := Nat.le_of_mul_le_mul_right this hsz
          omega
      subst hn
      rw [List.find?_cons]
      have : now ≤ (scheduled start T size n).endTime rate := by
        rw [hend, Int.add_mul]; omega
      simp [this]
  rw [sampleAt_find, hfind] at hsample
  simp only [scheduled] at hsample
  have hneg : (now - (start + m * T)) * rate ≤ 0 := by
    have : now - (start + m * T) ≤ 0 := by omega
    have := Int.mul_le_mul_of_nonneg_right this (show (0 : Int) ≤ rate by omega)
    simpa using this
  -- tdiv of a nonpositive number
  have hcd : ∀ z : Int, z ≤ 0 → z ≤ z.tdiv second * second ∧ z.tdiv second * second < z + second := by
    intro z hz
    have e1 : z.tdiv second = -((-z) / second) := by
      rw [← Int.tdiv_eq_ediv_of_nonneg (show 0 ≤ -z by omega), Int.neg_tdiv, Int.neg_neg]
    have e2 := Int.ediv_mul_le (-z) (b := second) (by decide)
    have e3 := Int.lt_ediv_add_one_mul_self (-z) (b := second) (by decide)
    rw [Int.add_mul] at e3
    rw [e1, Int.neg_mul]
    omega
  obtain ⟨y1, y2⟩ := hcd _ hneg
  have x1 := Int.ediv_mul_le ((now - (start + k * T)) * rate) (b := second) (by decide)
  have x2 := Int.lt_ediv_add_one_mul_self ((now - (start + k * T)) * rate) (b := second) (by decide)
  -- everything times a second
  have hxS : (info rate now s).1.sample * second = k * (size * second) + (now - (start + k * T)) * rate / second * second := by
    rw [hx, Int.add_mul, Int.mul_assoc]
  have hyS : (info rate now t).1.sample * second =
      m * (size * second) + ((now - (start + m * T)) * rate).tdiv second * second := by
    rw [hsample, Int.add_mul]; push_cast; rw [Int.mul_assoc]
  generalize (info rate now s).1.sample = x at *
  generalize (info rate now t).1.sample = y at *
  generalize ((now - (start + m * T)) * rate).tdiv second * second = Y at *
  rw [Int.add_mul] at x2
  generalize (now - (start + k * T)) * rate / second * second = X at *
  have eA : (now - (start + m * T)) * rate = (now - (start + k * T)) * rate - ((m : Int) - k) * (T * rate) := by
    rw [← Int.mul_assoc, ← Int.sub_mul]
    congr 1
    rw [Int.sub_mul]; omega
  rw [eA] at y1 y2
  have eS : (m : Int) * (size * second) = k * (size * second) + ((m : Int) - k) * (size * second) := by
    rw [Int.sub_mul]; omega
  rw [eS] at hyS
  have dpos : (0 : Int) ≤ (m : Int) - k := by omega
  have f1 : ((m : Int) - k) * (T * rate) ≤ ((m : Int) - k) * (size * second) :=
    Int.mul_le_mul_of_nonneg_left c1 dpos
  have f2 : ((m : Int) - k) * (size * second) ≤ ((m : Int) - k) * (T * rate) + ((m : Int) - k) * rate := by
    rw [← Int.mul_add]
    refine Int.mul_le_mul_of_nonneg_left ?_ dpos
    rw [Int.add_mul] at c2; omega
  have hsec : (0 : Int) < second := by decide
  have g : (y - x - 2) * second < ((m : Int) - k) * rate := by
    rw [Int.sub_mul, Int.sub_mul]; omega
  refine ⟨?_, g, ?_⟩
  · refine Int.le_of_mul_le_mul_right (a := second) ?_ hsec
    omega
  · intro hle
    have : (y - x - 2) * second < 1 * second := by omega
    have := Int.lt_of_mul_lt_mul_right this (by omega)
    omega

/-! ## Non-vacuity -/

theorem shows_intro {rate : Nat} {evs : List (Ev σ)} {now : Int} {st : State σ} (hr : Run rate ⟨[], [], []⟩ evs [] st)
    (hdc : (chunksOf evs).Pairwise (fun a b => a.startIndex ≠ b.startIndex)) (hq : queriesOf evs = [])
    (hb : 0 ≤ (info rate now st).1.sample ∧ (info rate now st).1.sample < 2 ^ 63) :
    Shows rate evs now (info rate now st).1 := by
  refine ⟨[], (info rate now st).2, ?_, hdc, by rw [hq]; simp, by simpa using hb, ?_⟩
  · simp only [List.nil_append]
    generalize hs : (⟨[], [], []⟩ : State σ) = s0 at hr
    clear hs
    generalize ho : ([] : List (PlaybackInfo σ)) = os at hr
    clear hb hq hdc
    induction hr with
    | nil s => exact .query (.nil _)
    | song h _ ih => exact .song h (ih ho)
    | chunk h _ ih => exact .chunk h (ih ho)
    | pause h _ ih => exact .pause h (ih ho)
    | query _ _ => simp at ho
  · simp only [List.nil_append, List.map_cons, List.map_nil]
    exact List.Pairwise.sublist List.filter_sublist (by simp)

/-- Two songs, a pause in the first; the second infoer subscribes after the second song was announced. -/
def exHist : List (Op Unit) := [.song ⟨(), 10, 60⟩, .toggle ⟨false, 20⟩, .toggle ⟨true, 30⟩, .song ⟨(), 100, 50⟩]

/-- At position 150 both show the second song, at position 50 the second infoer shows nothing. -/
example : ∃ evs evs' : List (Ev Unit), FromStart exHist [] evs ∧ Joined exHist [] evs' ∧
    (∃ o o', Shows 1000 evs 150000000 o ∧ Shows 1000 evs' 150000000 o' ∧ o'.sample = o.sample ∧ (100 : Int) < o.sample ∧
      o.timeInSong = 50000000) ∧
    (∃ o o', Shows 1000 evs 50000000 o ∧ Shows 1000 evs' 50000000 o' ∧ o'.sample = o.sample ∧ o.sample ≤ (100 : Int) ∧
      o.song = some ⟨(), 10, 60⟩ ∧ o.timeInSong = 30000000 ∧ o'.song = none) := by
  have r1 : Run 1000 (⟨[], [], []⟩ : State Unit) [.chunk ⟨0, 0, 200⟩, .song ⟨(), 10, 60⟩, .song ⟨(), 100, 50⟩,
      .pause ⟨false, 20⟩, .pause ⟨true, 30⟩] [] ⟨[⟨(), 10, 60⟩, ⟨(), 100, 50⟩], [⟨0, 0, 200⟩], [⟨false, 20⟩, ⟨true, 30⟩]⟩ :=
    .chunk (s1 := ⟨[], [⟨0, 0, 200⟩], []⟩) ⟨⟨.refl _, by simp⟩, rfl, rfl⟩ <|
    .song (s1 := ⟨[⟨(), 10, 60⟩], [⟨0, 0, 200⟩], []⟩) ⟨⟨.refl _, by simp⟩, rfl, rfl⟩ <|
    .song (s1 := ⟨[⟨(), 10, 60⟩, ⟨(), 100, 50⟩], [⟨0, 0, 200⟩], []⟩) ⟨⟨.refl _, by simp⟩, rfl, rfl⟩ <|
    .pause (s1 := ⟨[⟨(), 10, 60⟩, ⟨(), 100, 50⟩], [⟨0, 0, 200⟩], [⟨false, 20⟩]⟩) ⟨⟨.refl _, by simp⟩, rfl, rfl⟩ <|
    .pause (s1 := ⟨[⟨(), 10, 60⟩, ⟨(), 100, 50⟩], [⟨0, 0, 200⟩], [⟨false, 20⟩, ⟨true, 30⟩]⟩) ⟨⟨.refl _, by simp⟩, rfl, rfl⟩ <|
    .nil _
  have r2 : Run 1000 (⟨[], [], []⟩ : State Unit) [.chunk ⟨0, 0, 200⟩, .song ⟨(), 100, 50⟩,
      .pause ⟨false, 20⟩, .pause ⟨true, 30⟩] [] ⟨[⟨(), 100, 50⟩], [⟨0, 0, 200⟩], [⟨false, 20⟩, ⟨true, 30⟩]⟩ :=
    .chunk (s1 := ⟨[], [⟨0, 0, 200⟩], []⟩) ⟨⟨.refl _, by simp⟩, rfl, rfl⟩ <|
    .song (s1 := ⟨[⟨(), 100, 50⟩], [⟨0, 0, 200⟩], []⟩) ⟨⟨.refl _, by simp⟩, rfl, rfl⟩ <|
    .pause (s1 := ⟨[⟨(), 100, 50⟩], [⟨0, 0, 200⟩], [⟨false, 20⟩]⟩) ⟨⟨.refl _, by simp⟩, rfl, rfl⟩ <|
    .pause (s1 := ⟨[⟨(), 100, 50⟩], [⟨0, 0, 200⟩], [⟨false, 20⟩, ⟨true, 30⟩]⟩) ⟨⟨.refl _, by simp⟩, rfl, rfl⟩ <|
    .nil _
  refine ⟨[.chunk ⟨0, 0, 200⟩, .song ⟨(), 10, 60⟩, .song ⟨(), 100, 50⟩, .pause ⟨false, 20⟩, .pause ⟨true, 30⟩],
    [.chunk ⟨0, 0, 200⟩, .song ⟨(), 100, 50⟩, .pause ⟨false, 20⟩, .pause ⟨true, 30⟩], ⟨.refl _, .refl _⟩,
    ⟨⟨0x3FB999999999999A, some ⟨(), 100, 50⟩, [⟨false, 20⟩, ⟨true, 30⟩]⟩, rfl, .refl _, .refl _⟩, ?_, ?_⟩
  · exact ⟨_, _, shows_intro r1 (by simp [chunksOf]) rfl (by decide), shows_intro r2 (by simp [chunksOf]) rfl (by decide),
      by decide, by decide, by decide⟩
  · exact ⟨_, _, shows_intro r1 (by simp [chunksOf]) rfl (by decide), shows_intro r2 (by simp [chunksOf]) rfl (by decide),
      by decide, by decide, by decide, by decide, by decide⟩

/-- Positions: chunk 0 is playing, the other infoer only has chunk 3. -/
example : (info (σ := Unit) 44100 1500000000 ⟨[], [scheduled 0 4000000000 176400 0], []⟩).1.sample = 66150 ∧
    (info (σ := Unit) 44100 1500000000 ⟨[], [scheduled 0 4000000000 176400 3], []⟩).1.sample = 66150 := by decide

end MS.LateJoin
