import Verif.Model.Decode
import Verif.Props.StreamLoop
import Verif.Props.InSync
import Verif.Props.CatchUp
import Verif.Props.Files
/-!
# Property C95: songs are played at the speed they were recorded at
-/
set_option linter.unusedSimpArgs false
namespace MS.Speed
open MS.StreamLoop MS.Spec MS.InSync MS.Decode
open MS.StreamMusic (chunkTime)
open MS.Streamer (samplesDuration)

variable {α : Type}

/-- Truncated quotients: the error is less than the divisor. -/
theorem tdiv_bounds (n rate : Nat) (hr : 0 < rate) :
    (1000000000 * (n : Int)).tdiv rate * rate ≤ 1000000000 * n ∧
    1000000000 * (n : Int) - rate < (1000000000 * (n : Int)).tdiv rate * rate := by
  have h0 : (0 : Int) ≤ 1000000000 * (n : Int) := by omega
  rw [Int.tdiv_eq_ediv_of_nonneg h0]
  have h1 := Int.mul_ediv_add_emod (1000000000 * (n : Int)) rate
  have h2 := Int.emod_nonneg (1000000000 * (n : Int)) (show (rate : Int) ≠ 0 by omega)
  have h3 := Int.emod_lt_of_pos (1000000000 * (n : Int)) (show (0 : Int) < rate by omega)
  rw [Int.mul_comm ((1000000000 * (n : Int)) / rate)]
  omega

theorem chunkTime_eq (size rate : Nat) : chunkTime size rate = samplesDuration rate size := by
  simp [samplesDuration, chunkTime, Int.mul_comm]

/-- The time between two samples on the schedule, in terms of the rate of the stream: `j` samples take `j / rate` seconds,
up to a nanosecond and one more for each chunk border in between. -/
theorem due_spacing (start : Int) (size rate k j : Nat) (hr : 0 < rate) :
    (due start size rate (k + j) - due start size rate k) * rate < 1000000000 * (j : Int) + rate ∧
    1000000000 * (j : Int) - (((k + j) / size - k / size : Nat) + 1) * rate <
      (due start size rate (k + j) - due start size rate k) * rate := by
  have hq : k / size ≤ (k + j) / size := Nat.div_le_div_right (by omega)
  obtain ⟨q, hq'⟩ : ∃ q, (k + j) / size = k / size + q := ⟨_, (Nat.add_sub_cancel' hq).symm⟩
  have e1 := Nat.div_add_mod (k + j) size
  have e2 := Nat.div_add_mod k size
  rw [hq', Nat.mul_add] at e1
  unfold due
  rw [hq', Nat.add_sub_cancel_left, chunkTime_eq]
  generalize hA : size * (k / size) = A at e1 e2
  generalize hB : size * q = B at e1
  generalize hra : k % size = ra at e2 ⊢
  generalize hrb : (k + j) % size = rb at e1 ⊢
  have hj : (j : Int) = (B : Int) + rb - ra := by omega
  have b1 := tdiv_bounds size rate hr
  have b2 := tdiv_bounds ra rate hr
  have b3 := tdiv_bounds rb rate hr
  unfold samplesDuration
  generalize (1000000000 * (size : Int)).tdiv rate = S at *
  generalize (1000000000 * (ra : Int)).tdiv rate = X at *
  generalize (1000000000 * (rb : Int)).tdiv rate = Y at *
  have e3 : (start + ((k / size + q : Nat) : Int) * S + Y - (start + ((k / size : Nat) : Int) * S + X)) * rate =
      q * (S * rate) + Y * rate - X * rate := by
    rw [Int.natCast_add]
    generalize ((k / size : Nat) : Int) = a
    grind
  rw [e3]
  have hB' : (B : Int) = size * q := by rw [← hB]; simp
  have m1 : (q : Int) * (S * rate) ≤ q * (1000000000 * size) := Int.mul_le_mul_of_nonneg_left b1.1 (by omega)
  have m2 : (q : Int) * (1000000000 * size - rate) ≤ q * (S * rate) := Int.mul_le_mul_of_nonneg_left (by omega) (by omega)
  have m3 : (q : Int) * (1000000000 * size) = 1000000000 * B := by rw [hB']; grind
  have m4 : (q : Int) * (1000000000 * size - rate) = 1000000000 * B - q * rate := by rw [Int.mul_sub, m3]
  have m5 : ((q : Int) + 1) * rate = q * rate + rate := by rw [Int.add_mul]; simp
  rw [m5]
  omega

theorem audio_all_some (out : List (Option α)) : ∀ (n k : Nat), (∀ i, i < n → ∃ v, out[k + i]? = some (some v)) →
    ∀ i, i < n → (audio ((out.drop k).take n))[i]?.map some = out[k + i]? := by
  intro n
  induction n with
  | zero => intro k _ i hi; omega
  | succ n ih =>
    intro k h i hi
    obtain ⟨v, hv⟩ := h 0 (by omega)
    simp only [Nat.add_zero] at hv
    obtain ⟨hk, hv'⟩ := List.getElem?_eq_some_iff.1 hv
    rw [List.drop_eq_getElem_cons hk, hv']
    simp only [List.take_succ_cons, audio, List.filterMap_cons, id]
    cases i with
    | zero => simp [hv]
    | succ i =>
      have := ih (k + 1) (fun i hi => by
        have := h (i + 1) (by omega)
        rwa [show k + (i + 1) = k + 1 + i by omega] at this) i (by omega)
      simp only [List.getElem?_cons_succ, audio] at this ⊢
      rw [this, show k + 1 + i = k + (i + 1) by omega]

/-- The server that plays the files of a directory: `dec` is `getStreamer`. -/
def fileCfg {F : Type} (openFile : Files.Path → Option F) (decode : F → Option (Decoded α)) (dir : Files.Path) (brk : Nat) :
    Cfg α :=
  { dec := fun name => getStreamer openFile decode dir name.toList, brk := brk }

/-- Which sample of the recording is where in the stream: an announced song that is streamed without a pause up to its
sample `j` has its sample `j` exactly `j` places after the announced one. -/
theorem song_sample {F : Type} (openFile : Files.Path → Option F) (decode : F → Option (Decoded α)) (dir : Files.Path)
    (brk : Nat) (songs : List String) (acts : List Act) (s : St α)
    (h : run (fileCfg openFile decode dir brk) (init songs) acts = some s)
    (i k : Nat) (name : String) (len : Nat) (hi : s.news[i]? = some (k, name, len))
    (f : F) (hf : openFile (Files.join dir name.toList) = some f) (d : Decoded α) (hd : decode f = some d)
    (j : Nat) (hj : k + j < ((s.news[i + 1]?).map (·.1)).getD s.out.length)
    (hnp : ∀ m, m ≤ j → ∃ v, s.out[k + m]? = some (some v)) :
    ∃ v, d.samples[j]? = some v ∧ s.out[k + j]? = some (some v) := by
  obtain ⟨l, hl, -, hpre⟩ := C08_each_song_complete _ songs acts s h i k name len hi
  have hl' : l = d.samples := by
    simp [fileCfg, getStreamer, hf, hd] at hl
    exact hl.symm
  subst hl'
  obtain ⟨-, hp, -⟩ := hpre _ rfl
  generalize ((s.news[i + 1]?).map (·.1)).getD s.out.length = k' at hp hj
  have ha := audio_all_some s.out (j + 1) k (fun m hm => hnp m (by omega)) j (by omega)
  have hp2 : audio ((s.out.drop k).take (j + 1)) <+: d.samples := by
    refine List.IsPrefix.trans ?_ hp
    rw [List.drop_take]
    have e : (s.out.drop k).take (k' - k) =
        (s.out.drop k).take (j + 1) ++ ((s.out.drop k).take (k' - k)).drop (j + 1) := by
      conv => lhs; rw [← List.take_append_drop (j + 1) ((s.out.drop k).take (k' - k))]
      rw [List.take_take, Nat.min_eq_left (by omega)]
    rw [e]
    unfold audio
    rw [List.filterMap_append]
    exact List.prefix_append _ _
  obtain ⟨v, hv⟩ := hnp j (Nat.le_refl _)
  rw [hv] at ha
  cases hx : (audio ((s.out.drop k).take (j + 1)))[j]? with
  | none => rw [hx] at ha; simp at ha
  | some w =>
    rw [hx] at ha
    simp at ha
    subst ha
    obtain ⟨t, ht⟩ := hp2
    refine ⟨w, ?_, hv⟩
    rw [← ht, List.getElem?_append_left (List.getElem?_eq_some_iff.1 hx).1]
    exact hx

/-- C95, the part that holds: a song whose file was recorded at the sample rate of the server is scheduled at the speed it
was recorded at. Sample `j` of the recording, recorded `j / d.rate` seconds after the first one, is due that long after
the first one, up to a nanosecond and one more for each chunk border in between.
Missing from the full property: files recorded at another rate (`C95_other_rate`). -/
theorem C95_recorded_speed_partial {F : Type} (openFile : Files.Path → Option F) (decode : F → Option (Decoded α))
    (dir : Files.Path) (brk : Nat) (songs : List String) (acts : List Act) (s : St α)
    (h : run (fileCfg openFile decode dir brk) (init songs) acts = some s)
    (start : Int) (size rate : Nat) (hr : 0 < rate)
    (i k : Nat) (name : String) (len : Nat) (hi : s.news[i]? = some (k, name, len))
    (f : F) (hf : openFile (Files.join dir name.toList) = some f) (d : Decoded α) (hd : decode f = some d)
    (hrate : d.rate = rate)
    (j : Nat) (hj : k + j < ((s.news[i + 1]?).map (·.1)).getD s.out.length)
    (hnp : ∀ m, m ≤ j → ∃ v, s.out[k + m]? = some (some v)) :
    (∃ v, d.samples[j]? = some v ∧ s.out[k + j]? = some (some v)) ∧
    (due start size rate (k + j) - due start size rate k) * d.rate < 1000000000 * (j : Int) + d.rate ∧
    1000000000 * (j : Int) - (((k + j) / size - k / size : Nat) + 1) * d.rate <
      (due start size rate (k + j) - due start size rate k) * d.rate := by
  rw [hrate]
  exact ⟨song_sample openFile decode dir brk songs acts s h i k name len hi f hf d hd j hj hnp,
    due_spacing start size rate k j hr⟩

/-- C95 fails for files recorded at another rate: the sample rate of the recording is ignored, so sample `j` is due
`j / d.rate` seconds after the first one plus `j * (1 / rate - 1 / d.rate)` seconds (up to the same rounding): too late
if the recording has the higher rate, too early if it has the lower one. Both sides are multiplied by `d.rate * rate`. -/
theorem C95_other_rate {F : Type} (openFile : Files.Path → Option F) (decode : F → Option (Decoded α))
    (dir : Files.Path) (brk : Nat) (songs : List String) (acts : List Act) (s : St α)
    (h : run (fileCfg openFile decode dir brk) (init songs) acts = some s)
    (start : Int) (size rate : Nat) (hr : 0 < rate)
    (i k : Nat) (name : String) (len : Nat) (hi : s.news[i]? = some (k, name, len))
    (f : F) (hf : openFile (Files.join dir name.toList) = some f) (d : Decoded α) (hd : decode f = some d)
    (hd0 : 0 < d.rate)
    (j : Nat) (hj : k + j < ((s.news[i + 1]?).map (·.1)).getD s.out.length)
    (hnp : ∀ m, m ≤ j → ∃ v, s.out[k + m]? = some (some v)) :
    (∃ v, d.samples[j]? = some v ∧ s.out[k + j]? = some (some v)) ∧
    ((due start size rate (k + j) - due start size rate k) * d.rate - 1000000000 * (j : Int)) * rate <
      1000000000 * (j : Int) * ((d.rate : Int) - rate) + rate * d.rate ∧
    1000000000 * (j : Int) * ((d.rate : Int) - rate) - (((k + j) / size - k / size : Nat) + 1) * rate * d.rate <
      ((due start size rate (k + j) - due start size rate k) * d.rate - 1000000000 * (j : Int)) * rate := by
  refine ⟨song_sample openFile decode dir brk songs acts s h i k name len hi f hf d hd j hj hnp, ?_⟩
  obtain ⟨h1, h2⟩ := due_spacing start size rate k j hr
  generalize due start size rate (k + j) - due start size rate k = D at *
  generalize (((k + j) / size - k / size : Nat) : Int) = x at *
  have hd0' : (0 : Int) < d.rate := by omega
  have h1' := Int.mul_lt_mul_of_pos_right h1 hd0'
  have h2' := Int.mul_lt_mul_of_pos_right h2 hd0'
  generalize (d.rate : Int) = r at *
  generalize (rate : Int) = p at *
  generalize (j : Int) = jj at *
  constructor
  · have e1 : (D * r - 1000000000 * jj) * p = D * p * r - 1000000000 * jj * p := by grind
    have e2 : 1000000000 * jj * (r - p) + p * r = (1000000000 * jj + p) * r - 1000000000 * jj * p := by grind
    omega
  · have e1 : (D * r - 1000000000 * jj) * p = D * p * r - 1000000000 * jj * p := by grind
    have e2 : 1000000000 * jj * (r - p) - (x + 1) * p * r = (1000000000 * jj - (x + 1) * p) * r - 1000000000 * jj * p := by
      grind
    omega

/-- A file recorded at 48 kHz on a server with the default sample rate and chunk size: a sample that was recorded a second
or more after the beginning of the song is due at least 8.8 % later after it. -/
theorem C95_48k_is_slow {F : Type} (openFile : Files.Path → Option F) (decode : F → Option (Decoded α))
    (dir : Files.Path) (brk : Nat) (songs : List String) (acts : List Act) (s : St α)
    (h : run (fileCfg openFile decode dir brk) (init songs) acts = some s) (start : Int)
    (i k : Nat) (name : String) (len : Nat) (hi : s.news[i]? = some (k, name, len))
    (f : F) (hf : openFile (Files.join dir name.toList) = some f) (d : Decoded α) (hd : decode f = some d)
    (hrate : d.rate = 48000)
    (j : Nat) (hj : k + j < ((s.news[i + 1]?).map (·.1)).getD s.out.length)
    (hnp : ∀ m, m ≤ j → ∃ v, s.out[k + m]? = some (some v)) (hsec : 48000 ≤ j) :
    1088 * (1000000000 * (j : Int)) ≤
      1000 * ((due start 176400 44100 (k + j) - due start 176400 44100 k) * (48000 : Nat)) := by
  obtain ⟨-, -, h2⟩ := C95_other_rate openFile decode dir brk songs acts s h start 176400 44100 (by omega) i k name len hi
    f hf d hd (by omega) j hj hnp
  rw [hrate] at h2
  generalize due start 176400 44100 (k + j) - due start 176400 44100 k = D at *
  have hx : (k + j) / 176400 - k / 176400 ≤ j / 176400 + 1 := by omega
  omega

/-- The rate at which a listener hears a song is the one of his player: whatever the rate of the recording, of the server
and the clock are, `j` samples of sound after the first one of the song comes sample `j`. -/
theorem C95_heard_at_player_rate (playerRate len : Nat) (d : Decoded α) (nows : List Int) (p t : List (Streamer.TS α))
    (hp : p.map (·.val) = d.samples.map some) (hl : len * nows.length ≤ d.samples.length) (j : Nat) (hj : j < len * nows.length) :
    ∃ out sy rest v, Streamer.playLoop playerRate len nows false (p ++ t) = some (out, sy, rest) ∧
      out[j]? = some (some v) ∧ d.samples[j]? = some v := by
  refine ⟨_, _, _, d.samples[j]'(by omega), C83_clock_ignored_in_song playerRate len nows p t d.samples hp hl, ?_, ?_⟩
  · rw [List.getElem?_map, List.getElem?_take_of_lt hj, List.getElem?_eq_getElem (by omega)]; rfl
  · rw [List.getElem?_eq_getElem]

/-- Non-vacuity, and the full property refuted outright: a file of three samples recorded at 48 kHz. -/
def demo48 : Cfg Nat :=
  fileCfg (F := Nat) (fun p => if p = "/a/x.mp3".toList then some 0 else none) (fun _ => some ⟨[5, 6, 7], 48000⟩) "/a".toList 1

set_option maxRecDepth 20000 in
/-- C95 refuted by one run: the third sample was recorded 41667 ns after the first and is due 45351 ns after it. -/
theorem C95_refuted :
    ∃ s, run demo48 (init ["x.mp3"]) [.setPlaying true, .loop, .loop, .loop, .loop, .loop, .loop] = some s ∧
      s.news = [(0, "x.mp3", 3)] ∧ s.out = [some 5, some 6, some 7] ∧
      ∀ start, due start 176400 44100 2 - due start 176400 44100 0 = 45351 := by
  refine ⟨_, rfl, rfl, rfl, ?_⟩
  intro start
  simp only [due, samplesDuration, chunkTime]
  have e1 : ((1000000000 * ((2 % 176400 : Nat) : Int)).tdiv (44100 : Nat)) = 45351 := by decide
  have e0 : ((1000000000 * ((0 % 176400 : Nat) : Int)).tdiv (44100 : Nat)) = 0 := by decide
  rw [e1, e0]
  simp
  omega

/-- Non-vacuity of `C95_recorded_speed_partial` and `C95_other_rate`: the hypotheses hold for the third sample of that run. -/
example : ∃ s, run demo48 (init ["x.mp3"]) [.setPlaying true, .loop, .loop, .loop, .loop, .loop, .loop] = some s ∧
    s.news[0]? = some (0, "x.mp3", 3) ∧ 0 + 2 < ((s.news[0 + 1]?).map (·.1)).getD s.out.length ∧
    (∀ m, m ≤ 2 → ∃ v, s.out[0 + m]? = some (some v)) := by
  obtain ⟨s, h1, h2, h3, -⟩ := C95_refuted
  refine ⟨s, h1, by rw [h2]; rfl, by rw [h2, h3]; decide, ?_⟩
  intro m hm
  rw [h3]
  match m, hm with
  | 0, _ => exact ⟨5, rfl⟩
  | 1, _ => exact ⟨6, rfl⟩
  | 2, _ => exact ⟨7, rfl⟩

end MS.Speed
