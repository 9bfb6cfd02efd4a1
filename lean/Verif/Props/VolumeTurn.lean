import Verif.Model.VolumeTurn
import Verif.Props.SoundPath
/-!
# Property C138: a volume change is heard at once, and in everything that follows
-/
set_option linter.unusedSimpArgs false
set_option linter.unusedVariables false
namespace MS.VolumeTurn
open MS.Float64 MS.SoundPath
open MS.Pcm (put le16)
open MS.Streamer (TS playLoop stream)

attribute [local irreducible] one

/-- Specification: the volume in force after the steps `as`, `v` being the one before: that of the last volume message. -/
def inForce : UInt64 → List Act → UInt64
  | v, [] => v
  | _, .setVolume w :: as => inForce w as
  | v, _ :: as => inForce v as

/-- Specification: for each conversion among the steps, in order, the volume in force when it happens. -/
def volumesAt : UInt64 → List Act → List UInt64
  | _, [] => []
  | _, .setVolume w :: as => volumesAt w as
  | v, .convert :: as => v :: volumesAt v as
  | v, _ :: as => volumesAt v as

/-- Specification: the times of the clock at which the calls of `Stream` begin. -/
def clocks : List Act → List Int
  | [] => []
  | .stream now :: as => now :: clocks as
  | _ :: as => clocks as

/-- Specification: how many values have been converted during the steps. -/
def converted : List Act → Nat
  | [] => 0
  | .convert :: as => converted as + 1
  | _ :: as => converted as

/-- Specification: a sample has two values, one per channel. -/
def pairs : List UInt64 → List (UInt64 × UInt64)
  | a :: b :: r => (a, b) :: pairs r
  | _ => []

theorem volumesAt_length (v : UInt64) (as : List Act) : (volumesAt v as).length = converted as := by
  induction as generalizing v with
  | nil => rfl
  | cons a as ih => cases a <;> simp [volumesAt, converted, ih]

theorem volumesAt_append (v : UInt64) (as bs : List Act) : volumesAt v (as ++ bs) = volumesAt v as ++ volumesAt (inForce v as) bs := by
  induction as generalizing v with
  | nil => rfl
  | cons a as ih => cases a <;> simp [volumesAt, inForce, ih]

theorem inForce_append (v : UInt64) (as bs : List Act) : inForce v (as ++ bs) = inForce (inForce v as) bs := by
  induction as generalizing v with
  | nil => rfl
  | cons a as ih => cases a <;> simp [inForce, ih]

theorem clocks_append (as bs : List Act) : clocks (as ++ bs) = clocks as ++ clocks bs := by
  induction as with
  | nil => rfl
  | cons a as ih => cases a <;> simp [clocks, ih]

theorem converted_append (as bs : List Act) : converted (as ++ bs) = converted as + converted bs := by
  induction as with
  | nil => simp [converted]
  | cons a as ih => cases a <;> simp [converted, ih] <;> omega

theorem run_append {rate len : Nat} {s s2 : St} {as bs : List Act} (h : run rate len s (as ++ bs) = some s2) :
    ∃ s1, run rate len s as = some s1 ∧ run rate len s1 bs = some s2 := by
  induction as generalizing s with
  | nil => exact ⟨s, rfl, h⟩
  | cons a as ih =>
    simp only [List.cons_append, run] at h ⊢
    split at h
    · rename_i s' hs
      exact ih h
    · cases h

theorem playLoop_snoc {α : Type} {rate len : Nat} {now : Int} {o : List (Option α)} {sy2 : Bool} {q2 : List (TS α)} :
    ∀ (nows : List Int) (sy : Bool) (q : List (TS α)) (out : List (Option α)) (sy1 : Bool) (q1 : List (TS α)),
    playLoop rate len nows sy q = some (out, sy1, q1) → stream rate len now sy1 q1 = some (o, sy2, q2) →
    playLoop rate len (nows ++ [now]) sy q = some (out ++ o, sy2, q2) := by
  intro nows
  induction nows with
  | nil =>
    intro sy q out sy1 q1 h h2
    simp only [playLoop, Option.some.injEq, Prod.mk.injEq] at h
    obtain ⟨rfl, rfl, rfl⟩ := h
    simp [playLoop, h2]
  | cons n nows ih =>
    intro sy q out sy1 q1 h h2
    simp only [playLoop] at h
    split at h
    · cases h
    rename_i o1 sy' q' hst
    split at h
    · cases h
    rename_i o2 sy'' q'' hpl
    simp only [Option.some.injEq, Prod.mk.injEq] at h
    obtain ⟨rfl, rfl, rfl⟩ := h
    have := ih _ _ _ _ _ hpl h2
    simp [playLoop, hst, this]

/-- The values of the channels, in the order of conversion. -/
def chans (out : List (Option (UInt64 × UInt64))) : List UInt64 := (out.map written).flatMap (fun s => [s.1, s.2])

/-- The bytes of the values `ch`, converted at the volumes `vols`. -/
def bytesOf (vols ch : List UInt64) : List Int := (List.zipWith (fun v x => [(sampleBytes v x).1, (sampleBytes v x).2]) vols ch).flatten

theorem chans_append (a b : List (Option (UInt64 × UInt64))) : chans (a ++ b) = chans a ++ chans b := by simp [chans]

theorem chans_length (a : List (Option (UInt64 × UInt64))) : (chans a).length = 2 * a.length := by
  induction a with
  | nil => rfl
  | cons x a ih => rw [show x :: a = [x] ++ a from rfl, chans_append, List.length_append, ih]; simp [chans]; omega

theorem chans_value (a : List (Option (UInt64 × UInt64))) (j : Nat) : (chans a)[j]? = value (a.map written) j := by
  induction a generalizing j with
  | nil => simp [chans, value]
  | cons x a ih =>
    rw [show x :: a = [x] ++ a from rfl, chans_append]
    match j with
    | 0 => simp [chans, value]
    | 1 => simp [chans, value]
    | j + 2 =>
      have h1 : (chans [x] ++ chans a)[j + 2]? = (chans a)[j]? := by
        rw [List.getElem?_append_right (by simp [chans])]; simp [chans]
      have e1 : (j + 2) / 2 = j / 2 + 1 := by omega
      have e2 : (j + 2) % 2 = j % 2 := by omega
      rw [h1, ih, value, value, e1, e2]
      simp

theorem bytesOf_snoc (vols ch : List UInt64) (v x : UInt64) (h : ch[vols.length]? = some x) :
    bytesOf (vols ++ [v]) ch = bytesOf vols ch ++ [(sampleBytes v x).1, (sampleBytes v x).2] := by
  induction vols generalizing ch with
  | nil =>
    cases ch with
    | nil => simp at h
    | cons y ch => simp at h; subst h; simp [bytesOf]
  | cons w vols ih =>
    cases ch with
    | nil => simp at h
    | cons y ch =>
      have := ih ch (by simpa using h)
      simp only [bytesOf, List.cons_append, List.zipWith_cons_cons, List.flatten_cons] at this ⊢
      rw [this]; simp

theorem bytesOf_append (vols a b : List UInt64) (h : vols.length ≤ a.length) : bytesOf vols (a ++ b) = bytesOf vols a := by
  induction vols generalizing a with
  | nil => rfl
  | cons w vols ih =>
    cases a with
    | nil => simp at h
    | cons y a =>
      have := ih a (by simpa using h)
      simp only [bytesOf, List.cons_append, List.zipWith_cons_cons, List.flatten_cons] at this ⊢
      rw [this]

theorem bytesOf_length (vols ch : List UInt64) (h : vols.length ≤ ch.length) : (bytesOf vols ch).length = 2 * vols.length := by
  induction vols generalizing ch with
  | nil => rfl
  | cons w vols ih =>
    cases ch with
    | nil => simp at h
    | cons y ch =>
      have := ih ch (by simpa using h)
      simp only [bytesOf, List.zipWith_cons_cons, List.flatten_cons, List.length_append] at this ⊢
      rw [this]; simp; omega

/-- What holds after each step. -/
structure Inv (rate len : Nat) (v0 : UInt64) (q0 : List (TS (UInt64 × UInt64))) (acts : List Act) (s : St) : Prop where
  vol : s.volume = inForce v0 acts
  len_buf : s.buf.length = 4 * len
  main : ∃ out, playLoop rate len (clocks acts) true q0 = some (out, s.syncing, s.buffer) ∧ out.length = len * (clocks acts).length ∧
    ((s.pc = none ∧ converted acts = 2 * out.length ∧ s.written = bytesOf (volumesAt v0 acts) (chans out)) ∨
     ∃ j o1 o2, s.pc = some j ∧ out = o1 ++ o2 ∧ s.samples = o2.map written ∧ o2.length = len ∧ j ≤ 2 * len ∧
       converted acts = 2 * o1.length + j ∧ s.written ++ s.buf.take (2 * j) = bytesOf (volumesAt v0 acts) (chans out))

theorem inv_init (rate len : Nat) (v0 : UInt64) (q0 : List (TS (UInt64 × UInt64))) : Inv rate len v0 q0 [] (init len v0 q0) :=
  ⟨rfl, by simp [init], [], rfl, by simp [clocks], .inl ⟨rfl, rfl, rfl⟩⟩

theorem take_put (l : List Int) (n : Nat) (x y : Int) (h : n + 1 < l.length) :
    (put (put l n x) (n + 1) y).take (n + 2) = l.take n ++ [x, y] := by
  apply List.ext_getElem?
  intro i
  simp only [put, List.getElem?_take, List.getElem?_append, List.getElem?_set, List.length_set, List.length_take]
  grind

theorem inv_step {rate len : Nat} {v0 : UInt64} {q0 : List (TS (UInt64 × UInt64))} {acts : List Act} {s s' : St} {a : Act}
    (h : Inv rate len v0 q0 acts s) (hs : step rate len s a = some s') : Inv rate len v0 q0 (acts ++ [a]) s' := by
  obtain ⟨hv, hb, out, hp, ho, hc⟩ := h
  cases a with
  | setVolume v =>
    simp only [step, Option.some.injEq] at hs
    subst hs
    refine ⟨by simp [inForce_append, inForce], hb, out, by simpa [clocks_append, clocks] using hp, by simpa [clocks_append, clocks] using ho, ?_⟩
    simpa [converted_append, converted, volumesAt_append, volumesAt] using hc
  | stream now =>
    simp only [step] at hs
    split at hs
    · rename_i o sy q hpc hst
      simp only [Option.some.injEq] at hs
      subst hs
      have hlen : o.length = len := by
        have : playLoop rate len [now] s.syncing s.buffer = some (o, sy, q) := by simp [playLoop, hst]
        have := (MS.Streamer.C14_in_order rate len [now] s.syncing s.buffer o sy q this).1
        simpa using this
      rcases hc with ⟨_, hc, hw⟩ | ⟨j, _, _, e, _⟩
      · have hl : (volumesAt v0 acts).length ≤ (chans out).length := by rw [volumesAt_length, chans_length, hc]; omega
        refine ⟨by simp [inForce_append, inForce, hv], hb, out ++ o, ?_, ?_, .inr ⟨0, out, o, rfl, rfl, rfl, hlen, by omega, ?_, ?_⟩⟩
        · simpa [clocks_append, clocks] using playLoop_snoc _ _ _ _ _ _ hp hst
        · simp [clocks_append, clocks, ho, hlen, Nat.mul_add]
        · simp [converted_append, converted, hc]
        · simp [volumesAt_append, volumesAt, hw, chans_append, bytesOf_append _ _ _ hl]
      · rw [hpc] at e; cases e
    · cases hs
  | convert =>
    simp only [step] at hs
    split at hs
    · cases hs
    rename_i j hpc
    split at hs
    · cases hs
    rename_i x hx
    simp only [Option.some.injEq] at hs
    subst hs
    rcases hc with ⟨e, _⟩ | ⟨j', o1, o2, e, rfl, hsam, hl2, hj, hcv, hw⟩
    · rw [hpc] at e; cases e
    · rw [hpc] at e
      simp only [Option.some.injEq] at e
      subst e
      have hj2 : j < 2 * len := by
        rcases Nat.lt_or_ge j (2 * len) with h | h
        · exact h
        · simp only [value] at hx
          rw [List.getElem?_eq_none (by rw [hsam, List.length_map, hl2]; omega)] at hx
          cases hx
      have hch : (chans (o1 ++ o2))[(volumesAt v0 acts).length]? = some x := by
        rw [volumesAt_length, hcv, chans_append, List.getElem?_append_right (by rw [chans_length]; omega), chans_length,
          Nat.add_sub_cancel_left, chans_value, ← hsam, hx]
      refine ⟨by simp [inForce_append, inForce, hv], by simp [put, hb], o1 ++ o2, by simpa [clocks_append, clocks] using hp,
        by simpa [clocks_append, clocks] using ho, .inr ⟨j + 1, o1, o2, rfl, rfl, hsam, hl2, by omega, ?_, ?_⟩⟩
      · simp [converted_append, converted, hcv]; omega
      · rw [volumesAt_append, show volumesAt (inForce v0 acts) [.convert] = [inForce v0 acts] from rfl, bytesOf_snoc _ _ _ _ hch, ← hw,
          ← hv, show 2 * (j + 1) = 2 * j + 2 by omega, take_put _ _ _ _ (by rw [hb]; omega), List.append_assoc]
  | write =>
    simp only [step] at hs
    split at hs
    · cases hs
    rename_i j hpc
    split at hs
    · rename_i hj
      simp only [Option.some.injEq] at hs
      subst hs
      rcases hc with ⟨e, _⟩ | ⟨j', o1, o2, e, rfl, hsam, hl2, hj', hcv, hw⟩
      · rw [hpc] at e; cases e
      · rw [hpc] at e
        simp only [Option.some.injEq] at e
        subst e
        rw [hsam, List.length_map] at hj
        refine ⟨by simp [inForce_append, inForce, hv], hb, o1 ++ o2, by simpa [clocks_append, clocks] using hp,
          by simpa [clocks_append, clocks] using ho, .inl ⟨rfl, ?_, ?_⟩⟩
        · simp [converted_append, converted, hcv]; omega
        · have : s.buf.take (2 * j) = s.buf := List.take_of_length_le (by omega)
          rw [this] at hw
          simpa [volumesAt_append, volumesAt] using hw
    · cases hs

theorem inv_run {rate len : Nat} {v0 : UInt64} {q0 : List (TS (UInt64 × UInt64))} : ∀ (as acts : List Act) (s s' : St),
    Inv rate len v0 q0 acts s → run rate len s as = some s' → Inv rate len v0 q0 (acts ++ as) s' := by
  intro as
  induction as with
  | nil => intro acts s s' h hr; simp only [run, Option.some.injEq] at hr; subst hr; simpa using h
  | cons a as ih =>
    intro acts s s' h hr
    simp only [run] at hr
    split at hr
    · rename_i s1 hs
      have := ih (acts ++ [a]) s1 s' (inv_step h hs) hr
      simpa using this
    · cases hr

theorem levels_of_bytes : ∀ (out : List (Option (UInt64 × UInt64))) (vols : List UInt64), (∀ v ∈ vols, ∃ z, ofBits v = .fin z) →
    vols.length = 2 * out.length → levelsOf (bytesOf vols (chans out)) = List.zipWith level (pairs vols) out := by
  intro out
  induction out with
  | nil => intro vols hf h; simp at h; subst h; rfl
  | cons o out ih =>
    intro vols hf h
    match vols, h with
    | a :: b :: r, h =>
      have := ih r (fun v hv => hf v (by simp [hv])) (by simp at h; omega)
      rw [show o :: out = [o] ++ out from rfl, chans_append]
      have hl := level_written (a, b) (hf a (by simp)) (hf b (by simp)) o
      simp only [heard] at hl
      simp only [chans, List.map_cons, List.map_nil, List.flatMap_cons, List.flatMap_nil, List.append_nil, List.cons_append, List.nil_append,
        bytesOf, List.zipWith_cons_cons, List.flatten_cons, levelsOf, pairs] at this ⊢
      rw [this, hl]
    | [], h => simp at h
    | [_], h => simp at h; omega

/-- C138, what is heard. Whatever volume messages are handled at whatever moments, also in the middle of a buffer or between the two
channels of a sample: the samples handed to the sound device are those `Stream` has put out, each value at the volume in force at the
moment of its conversion. -/
theorem C138_levels (rate len : Nat) (v0 : UInt64) (q : List (TS (UInt64 × UInt64))) (acts : List Act) (s : St)
    (h : run rate len (init len v0 q) acts = some s) (hidle : s.pc = none) (hfin : ∀ v ∈ volumesAt v0 acts, ∃ z, ofBits v = .fin z) :
    ∃ out, playLoop rate len (clocks acts) true q = some (out, s.syncing, s.buffer) ∧ out.length = len * (clocks acts).length ∧
      (volumesAt v0 acts).length = 2 * out.length ∧ levelsOf s.written = List.zipWith level (pairs (volumesAt v0 acts)) out := by
  obtain ⟨hv, hb, out, hp, ho, hc⟩ := inv_run acts [] _ s (inv_init rate len v0 q) h
  simp only [List.nil_append] at *
  rcases hc with ⟨_, hcv, hw⟩ | ⟨j, _, _, e, _⟩
  · have hl : (volumesAt v0 acts).length = 2 * out.length := by rw [volumesAt_length, hcv]
    exact ⟨out, hp, ho, hl, by rw [hw, levels_of_bytes out _ hfin hl]⟩
  · rw [hidle] at e; cases e

theorem volumesAt_const (v : UInt64) (as : List Act) (h : ∀ w, .setVolume w ∉ as) : volumesAt v as = List.replicate (converted as) v := by
  induction as with
  | nil => rfl
  | cons a as ih =>
    have h2 : ∀ w, Act.setVolume w ∉ as := fun w hw => h w (by simp [hw])
    cases a with
    | setVolume w => exact absurd (by simp) (h w)
    | convert => simp [volumesAt, converted, ih h2, List.replicate_succ]
    | stream n => simpa [volumesAt, converted] using ih h2
    | write => simpa [volumesAt, converted] using ih h2

theorem pairs_get : ∀ (l : List UInt64) (i : Nat), (pairs l)[i]? =
    match l[2 * i]?, l[2 * i + 1]? with
    | some a, some b => some (a, b)
    | _, _ => none
  | [], i => by simp [pairs]
  | [a], i => by
    simp only [pairs]
    rw [show ([a] : List UInt64)[2 * i + 1]? = none by simp]
    simp
  | a :: b :: r, 0 => by simp [pairs]
  | a :: b :: r, i + 1 => by
    have := pairs_get r i
    simp only [pairs, List.getElem?_cons_succ, this, show 2 * (i + 1) = 2 * i + 1 + 1 by omega]

theorem pairs_length : ∀ (l : List UInt64) (n : Nat), l.length = 2 * n → (pairs l).length = n
  | [], n, h => by simp at h; simp [pairs]; omega
  | [a], n, h => by simp at h; omega
  | a :: b :: r, 0, h => by simp at h
  | a :: b :: r, n + 1, h => by
    have := pairs_length r n (by simp at h; omega)
    simp [pairs, this]

/-- How far the loop has come: the call of `Stream` under way is the last one begun. -/
theorem converted_bounds {rate len : Nat} {v0 : UInt64} {q : List (TS (UInt64 × UInt64))} {acts : List Act} {s : St}
    (h : run rate len (init len v0 q) acts = some s) :
    converted acts ≤ 2 * (len * (clocks acts).length) ∧ 2 * (len * (clocks acts).length) ≤ converted acts + 2 * len := by
  obtain ⟨hv, hb, out, hp, ho, hc⟩ := inv_run acts [] _ s (inv_init rate len v0 q) h
  simp only [List.nil_append] at *
  rw [← ho]
  rcases hc with ⟨_, hcv, hw⟩ | ⟨j, o1, o2, _, rfl, _, hl, hj, hcv, _⟩
  · omega
  · rw [List.length_append]; omega

/-- C138, a change. A volume message with the volume `v` is handled after the steps `before`, and no other after it. With
`n = converted before`: every value from the `n`-th on is heard at `v`, every value before at the volume it had anyway; so at most one
sample has its channels at different volumes. All samples `Stream` puts out later, and the rest of the buffer being converted, are heard at
`v`: at most the length of one buffer that is not yet handed over is heard at the old volume. -/
theorem C138_change (rate len : Nat) (v0 v : UInt64) (q : List (TS (UInt64 × UInt64))) (before after : List Act) (s : St)
    (h : run rate len (init len v0 q) (before ++ .setVolume v :: after) = some s) (hidle : s.pc = none)
    (hlast : ∀ w, .setVolume w ∉ after) (hv : ∃ z, ofBits v = .fin z) (hfin : ∀ u ∈ volumesAt v0 before, ∃ z, ofBits u = .fin z) :
    ∃ out, playLoop rate len (clocks (before ++ after)) true q = some (out, s.syncing, s.buffer) ∧
      (levelsOf s.written).length = out.length ∧
      converted before ≤ 2 * (len * (clocks before).length) ∧ 2 * (len * (clocks before).length) ≤ converted before + 2 * len ∧
      ∀ i o, out[i]? = some o → ∃ a b, (levelsOf s.written)[i]? = some (level (a, b) o) ∧
        (converted before ≤ 2 * i → a = v) ∧ (converted before ≤ 2 * i + 1 → b = v) ∧
        (2 * i < converted before → (volumesAt v0 before)[2 * i]? = some a) ∧
        (2 * i + 1 < converted before → (volumesAt v0 before)[2 * i + 1]? = some b) := by
  have hvols : volumesAt v0 (before ++ .setVolume v :: after) = volumesAt v0 before ++ List.replicate (converted after) v := by
    rw [volumesAt_append]
    simp only [volumesAt]
    rw [volumesAt_const v after hlast]
  have hcl : clocks (before ++ .setVolume v :: after) = clocks (before ++ after) := by simp [clocks_append, clocks]
  obtain ⟨s1, h1, h2⟩ := run_append h
  obtain ⟨out, e1, e2, e3, e4⟩ := C138_levels rate len v0 q _ s h hidle (by
    intro u hu
    rw [hvols, List.mem_append] at hu
    rcases hu with hu | hu
    · exact hfin u hu
    · rw [(List.mem_replicate.1 hu).2]; exact hv)
  rw [hvols] at e3 e4
  rw [hcl] at e1
  have key : ∀ i o, out[i]? = some o → ∃ a b, (volumesAt v0 before ++ List.replicate (converted after) v)[2 * i]? = some a ∧
      (volumesAt v0 before ++ List.replicate (converted after) v)[2 * i + 1]? = some b := by
    intro i o ho
    have hi : i < out.length := (List.getElem?_eq_some_iff.1 ho).1
    exact ⟨_, _, List.getElem?_eq_getElem (by omega), List.getElem?_eq_getElem (by omega)⟩
  refine ⟨out, e1, ?_, (converted_bounds h1).1, (converted_bounds h1).2, ?_⟩
  · rw [e4]
    have : (pairs (volumesAt v0 before ++ List.replicate (converted after) v)).length = out.length := by
      exact pairs_length _ _ e3
    simp [this]
  · intro i o ho
    obtain ⟨a, b, ha, hb⟩ := key i o ho
    refine ⟨a, b, ?_, ?_, ?_, ?_, ?_⟩
    · rw [e4, List.getElem?_zipWith, pairs_get, ha, hb, ho]
    · intro hn
      rw [List.getElem?_append_right (by rw [volumesAt_length]; exact hn), List.getElem?_replicate] at ha
      split at ha
      · simpa using ha.symm
      · cases ha
    · intro hn
      rw [List.getElem?_append_right (by rw [volumesAt_length]; exact hn), List.getElem?_replicate] at hb
      split at hb
      · simpa using hb.symm
      · cases hb
    · intro hn
      rw [List.getElem?_append_left (by rw [volumesAt_length]; exact hn)] at ha
      exact ha
    · intro hn
      rw [List.getElem?_append_left (by rw [volumesAt_length]; exact hn)] at hb
      exact hb

/-- C138, muting: from the handling of the message on, at most half a sample later, nothing is heard. -/
theorem C138_mute (rate len : Nat) (v0 : UInt64) (q : List (TS (UInt64 × UInt64))) (before after : List Act) (s : St)
    (h : run rate len (init len v0 q) (before ++ .setVolume 0 :: after) = some s) (hidle : s.pc = none)
    (hlast : ∀ w, .setVolume w ∉ after) (hfin : ∀ u ∈ volumesAt v0 before, ∃ z, ofBits u = .fin z) (i : Nat) (x : Int × Int)
    (hi : converted before ≤ 2 * i) (hx : (levelsOf s.written)[i]? = some x) : x = (0, 0) := by
  have h0 : ofBits 0 = .fin 0 := by simp [ofBits]
  obtain ⟨out, _, hl, _, _, hc⟩ := C138_change rate len v0 0 q before after s h hidle hlast ⟨0, h0⟩ hfin
  have hlt : i < out.length := by rw [← hl]; exact (List.getElem?_eq_some_iff.1 hx).1
  obtain ⟨a, b, e, ea, eb, _⟩ := hc i out[i] (List.getElem?_eq_getElem hlt)
  rw [ea hi, eb (by omega), hx] at e
  simp only [Option.some.injEq] at e
  rw [e]
  cases out[i] with
  | none => rfl
  | some y => simp [level, C108_silent _ _ h0]

theorem quads_bytes : ∀ (o : List (Option (UInt64 × UInt64))) (f : Nat → UInt64) (l : List UInt64), (∀ j, j < 2 * o.length → l[j]? = some (f j)) →
    ((o.map written).mapIdx fun i s => [(sampleBytes (f (2 * i)) s.1).1, (sampleBytes (f (2 * i)) s.1).2,
      (sampleBytes (f (2 * i + 1)) s.2).1, (sampleBytes (f (2 * i + 1)) s.2).2]).flatten = bytesOf (l.take (2 * o.length)) (chans o) := by
  intro o
  induction o with
  | nil => intro f l h; simp [bytesOf]
  | cons x o ih =>
    intro f l h
    match l with
    | [] => have := h 0 (by simp); simp at this
    | [a] => have := h 1 (by simp; omega); simp at this
    | a :: b :: r =>
      have ha := h 0 (by simp)
      have hb := h 1 (by simp; omega)
      simp at ha hb
      have := ih (fun j => f (j + 2)) r (fun j hj => by have := h (j + 2) (by simp; omega); simpa using this)
      rw [show x :: o = [x] ++ o from rfl, chans_append, show 2 * ([x] ++ o).length = 2 * o.length + 1 + 1 by simp; omega]
      simp only [List.take_succ_cons, chans, List.map_cons, List.map_nil, List.flatMap_cons, List.flatMap_nil, List.append_nil, List.cons_append,
        List.nil_append, bytesOf, List.zipWith_cons_cons, List.flatten_cons, List.mapIdx_cons, Nat.mul_zero, Nat.zero_add, ha, hb] at this ⊢
      rw [← this]
      simp only [Nat.mul_add, Nat.mul_one, Nat.add_assoc, Nat.reduceAdd]

theorem device_bytes (rate len : Nat) (vols : List UInt64) : ∀ (nows : List Int) (k : Nat) (sy : Bool) (q : List (TS (UInt64 × UInt64)))
    (buf : List Int) (out : List (Option (UInt64 × UInt64))) (sy' : Bool) (q' : List (TS (UInt64 × UInt64))), buf.length = 4 * len →
    playLoop rate len nows sy q = some (out, sy', q') → vols.length = 2 * len * k + 2 * out.length →
    device rate len (fun k j => (vols[2 * len * k + j]?).getD 0) k nows sy q buf = some (bytesOf (vols.drop (2 * len * k)) (chans out)) := by
  intro nows
  induction nows with
  | nil =>
    intro k sy q buf out sy' q' hb h hl
    simp only [playLoop, Option.some.injEq, Prod.mk.injEq] at h
    obtain ⟨rfl, rfl, rfl⟩ := h
    rw [List.drop_of_length_le (by simp at hl; omega)]
    simp [device, bytesOf]
  | cons now nows ih =>
    intro k sy q buf out sy' q' hb h hl
    simp only [playLoop] at h
    split at h
    · cases h
    rename_i o1 sy1 q1 hst
    split at h
    · cases h
    rename_i o2 sy2 q2 hpl
    simp only [Option.some.injEq, Prod.mk.injEq] at h
    obtain ⟨rfl, rfl, rfl⟩ := h
    have hlen : o1.length = len := by
      have : playLoop rate len [now] sy q = some (o1, sy1, q1) := by simp [playLoop, hst]
      have := (MS.Streamer.C14_in_order rate len [now] sy q o1 sy1 q1 this).1
      simpa using this
    rw [List.length_append, Nat.mul_add] at hl
    have hq := quads_bytes o1 (fun j => (vols[2 * len * k + j]?).getD 0) (vols.drop (2 * len * k)) (fun j hj => by
      rw [List.getElem?_drop, List.getElem?_eq_getElem (by omega)]; simp)
    have hbuf := C108_buffer (fun j => (vols[2 * len * k + j]?).getD 0) (o1.map written) buf (by simp [hlen, hb])
    rw [hq] at hbuf
    have hk : 2 * len * (k + 1) = 2 * len * k + 2 * len := by rw [Nat.mul_add, Nat.mul_one]
    have hbl : (bytesOf ((vols.drop (2 * len * k)).take (2 * o1.length)) (chans o1)).length = 4 * len := by
      rw [bytesOf_length _ _ (by rw [chans_length, List.length_take]; omega), List.length_take, List.length_drop]; omega
    have hi := ih (k + 1) sy1 q1 _ o2 _ _ hbl hpl (by rw [hk]; omega)
    simp only [device, hst, hbuf, hi]
    congr 1
    have hd : vols.drop (2 * len * k) = (vols.drop (2 * len * k)).take (2 * o1.length) ++ vols.drop (2 * len * (k + 1)) := by
      rw [hk, hlen, ← List.drop_drop, List.take_append_drop]
    have key : ∀ (l1 l2 c1 c2 : List UInt64), l1.length = c1.length → bytesOf (l1 ++ l2) (c1 ++ c2) = bytesOf l1 c1 ++ bytesOf l2 c2 := by
      intro l1 l2 c1 c2 h
      simp [bytesOf, List.zipWith_append h]
    conv => rhs; rw [hd, chans_append]
    rw [key _ _ _ _ (by rw [chans_length, List.length_take, List.length_drop]; omega)]

/-- C138 and C112 speak of the same bytes: every run of the loop among volume messages is one of `device` (C112), with the volumes in
force at the conversions. -/
theorem C138_device (rate len : Nat) (v0 : UInt64) (q : List (TS (UInt64 × UInt64))) (acts : List Act) (s : St)
    (h : run rate len (init len v0 q) acts = some s) (hidle : s.pc = none) :
    device rate len (fun k j => ((volumesAt v0 acts)[2 * len * k + j]?).getD 0) 0 (clocks acts) true q (List.replicate (4 * len) 0) =
      some s.written := by
  obtain ⟨hv, hb, out, hp, ho, hc⟩ := inv_run acts [] _ s (inv_init rate len v0 q) h
  simp only [List.nil_append] at *
  rcases hc with ⟨_, hcv, hw⟩ | ⟨j, _, _, e, _⟩
  · have := device_bytes rate len (volumesAt v0 acts) (clocks acts) 0 true q (List.replicate (4 * len) 0) out _ _ (by simp) hp
      (by rw [volumesAt_length, hcv]; simp)
    rw [this, hw]
    simp
  · rw [hidle] at e; cases e

/-- 1.0 and 0.5. -/
def full : UInt64 := 0x3FF0000000000000
def half : UInt64 := 0x3FE0000000000000

/-- A player with three samples, all of level one half, in its buffer. -/
def exBuffer : List (TS (UInt64 × UInt64)) := [⟨some (half, half), 0⟩, ⟨some (half, half), 2000000000⟩, ⟨some (half, half), 3000000000⟩]

/-- It puts out one silent buffer, then the last two samples, and the volume is set to 0 between the two channels of the first of these. -/
def exBefore : List Act := [.stream 0, .convert, .convert, .convert, .convert, .write, .stream 2000000000, .convert]

theorem ex_change : ∃ s, run 1 2 (init 2 full exBuffer) (exBefore ++ .setVolume 0 :: [.convert, .convert, .convert, .write]) = some s ∧
    s.pc = none ∧ converted exBefore = 5 ∧ levelsOf s.written = [(0, 0), (0, 0), (16384, 0), (0, 0)] := by
  refine ⟨⟨0, false, [], [(half, half), (half, half)], none, [0, 64, 0, 0, 0, 0, 0, 0], [0, 0, 0, 0, 0, 0, 0, 0, 0, 64, 0, 0, 0, 0, 0, 0]⟩, ?_, rfl, rfl, by decide +kernel⟩
  have h1 : sampleBytes full half = (0, 64) := by decide +kernel
  have h2 : sampleBytes full 0 = (0, 0) := by decide +kernel
  have h3 : sampleBytes 0 half = (0, 0) := by decide +kernel
  have s1 : stream 1 2 0 true exBuffer = some ([none, none], true, exBuffer) := by decide +kernel
  have s2 : stream 1 2 2000000000 true exBuffer = some ([some (half, half), some (half, half)], false, []) := by decide +kernel
  simp [run, step, init, exBefore, s1, s2, written, value, h1, h2, h3, put]

/-- The hypotheses on the volumes are met. -/
example : (∃ z, ofBits 0 = .fin z) ∧ ∀ u ∈ volumesAt full exBefore, ∃ z, ofBits u = .fin z := by
  refine ⟨⟨0, by simp [ofBits]⟩, fun u hu => ⟨one, ?_⟩⟩
  have : u = full := by
    have : volumesAt full exBefore = [full, full, full, full, full] := rfl
    rw [this] at hu
    simpa using hu
  rw [this]
  decide +kernel

end MS.VolumeTurn
