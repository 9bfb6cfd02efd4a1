import Verif.Props.Pipeline
import Verif.Props.PauseHeard
/-!
# C129, C130: everything a player plays is on time, and how soon the players fall silent

`C71_on_schedule` follows a player through one stretch of one song. Here the buffer holds any part of the server's stream, with songs,
breaks and pauses in any order, and the calls come at any times: every sample written is a sample of the stream, and is due at the
time of its slot, counted from the player's last synchronisation. If the sound device asks for samples at their rate this is the time
the player's clock shows. With C128 this bounds how long music is heard after a pause.
-/
set_option linter.unusedSimpArgs false
set_option linter.unusedVariables false
namespace MS.OnTime
open MS.Streamer MS.InSync
open MS.StreamMusic (chunkTime messages)

variable {α : Type}

/-- Specification: samples `a`, ..., `a + n - 1` of a stream with markers (`none`), with their due times. -/
def part (start : Int) (size rate : Nat) (val : Nat → Option α) (a n : Nat) : List (TS α) :=
  (List.range' a n).map (fun i => ⟨val i, due start size rate i⟩)

/-- Specification: the player that is called at `nows`, each time for `len` samples, is on time with sample `k` in slot `p`: it
has synchronised in slot `o` of a call, that is at `now + dur o`, up to a nanosecond per slot of this call, with a sample due between this
time and one sample later, and it has written one sample per slot since. -/
def Since (start : Int) (size rate len : Nat) (nows : List Int) (p k : Nat) : Prop :=
  ∃ c o now k0 m, p = len * c + o + m ∧ o < len ∧ k = k0 + m ∧ nows[c]? = some now ∧
    now + samplesDuration rate o ≤ due start size rate k0 + o ∧
    due start size rate k0 ≤ now + samplesDuration rate o + samplesDuration rate 1 + 1

theorem since_add {start : Int} {size rate len : Nat} {nows : List Int} {p k : Nat} (h : Since start size rate len nows p k) (j : Nat) :
    Since start size rate len nows (p + j) (k + j) := by
  obtain ⟨c, o, now, k0, m, h1, h2, h3, h4⟩ := h
  exact ⟨c, o, now, k0, m + j, by omega, h2, by omega, h4⟩

section
variable {start : Int} {size rate : Nat} {val : Nat → Option α}

theorem part_length (a n : Nat) : (part start size rate val a n).length = n := by simp [part]

theorem part_suffix {a n : Nat} {l r : List (TS α)} (h : part start size rate val a n = l ++ r) :
    l.length ≤ n ∧ r = part start size rate val (a + l.length) (n - l.length) := by
  have hl := congrArg List.length h
  rw [part_length, List.length_append] at hl
  refine ⟨by omega, ?_⟩
  have : r = (part start size rate val a n).drop l.length := by rw [h]; simp
  rw [this]
  unfold part
  rw [← List.map_drop, List.drop_range']
  simp

theorem part_prefix {a n : Nat} {l r : List (TS α)} (h : part start size rate val a n = l ++ r) :
    l = part start size rate val a l.length := by
  have hl := congrArg List.length h
  rw [part_length, List.length_append] at hl
  have e : part start size rate val a n =
      part start size rate val a l.length ++ part start size rate val (a + l.length) (n - l.length) := by
    unfold part
    rw [← List.map_append, List.range'_append_1, show l.length + (n - l.length) = n by omega]
  exact (List.append_inj (h.symm.trans e) (part_length _ _).symm).1

theorem part_get {a n : Nat} {l r : List (TS α)} {x : TS α} (h : part start size rate val a n = l ++ x :: r) :
    x = ⟨val (a + l.length), due start size rate (a + l.length)⟩ := by
  obtain ⟨h1, h2⟩ := part_suffix h
  have := congrArg List.head? h2
  have hl := congrArg List.length h
  rw [part_length] at hl
  simp at hl
  obtain ⟨k, hk⟩ : ∃ k, n - l.length = k + 1 := ⟨n - l.length - 1, by omega⟩
  rw [hk] at this
  simpa [part, List.range'_succ] using this

/-- One call. -/
theorem run_trace {len : Nat} {nows : List Int} {L : Nat} {now : Int} {sy : Bool} {q : List (TS α)} {out : List (Option α)} {sy' : Bool}
    {r : List (TS α)} (h : Run rate L now sy q out sy' r) : ∀ (i n c o : Nat) (now0 : Int), q = part start size rate val i n →
    nows[c]? = some now0 → o + L = len → now ≤ now0 + samplesDuration rate o → now0 + samplesDuration rate o ≤ now + o →
    (sy = false → Since start size rate len nows (len * c + o) i) →
    ∃ (ids : List (Option Nat)) (i' n' : Nat), r = part start size rate val i' n' ∧ i ≤ i' ∧ i' + n' = i + n ∧ ids.length = L ∧
      out = ids.map (fun x => x.bind val) ∧
      (∀ p k, ids[p]? = some (some k) → i ≤ k ∧ k < i' ∧ (val k).isSome ∧ Since start size rate len nows (len * c + o + p) k) ∧
      (∀ p p' k k' : Nat, p < p' → ids[p]? = some (some k) → ids[p']? = some (some k') → k < k') ∧
      (sy' = false → Since start size rate len nows (len * c + len) i') := by
  induction h with
  | done now sy q =>
    intro i n c o now0 hq hc ho h1 h2 h3
    refine ⟨[], i, n, hq, by omega, rfl, rfl, rfl, by simp, by simp, ?_⟩
    intro hs
    have e : len * c + o = len * c + len := by omega
    exact e ▸ h3 hs
  | @wait L now q nans r' s h0 h1 h2 h3 h4 =>
    intro i n c o now0 hq hc ho g1 g2 g3
    rw [hq] at h1
    obtain ⟨k1, k2⟩ := part_suffix h1
    refine ⟨List.replicate L none, _, _, k2, by omega, by omega, by simp, by simp, ?_, ?_, by simp⟩
    · intro p k hp
      rw [List.getElem?_replicate] at hp
      split at hp <;> simp at hp
    · intro p p' k k' _ hp
      rw [List.getElem?_replicate] at hp
      split at hp <;> simp at hp
  | @start L now q nans late r' tl s f out sy q' h0 h1 h2 h3 h4 h5 h6 h7 h8 ih =>
    intro i n c o now0 hq hc ho g1 g2 g3
    rw [hq, ← List.append_assoc] at h1
    obtain ⟨k1, k2⟩ := part_suffix h1
    have k3 := part_get h1
    have hd := dur_nonneg rate L
    have hd1 := dur_nonneg rate 1
    have hup : due start size rate (i + (nans ++ late).length) ≤ now + samplesDuration rate 1 + 1 := by
      rcases List.eq_nil_or_concat late with e | ⟨l', x, e⟩
      · subst e
        simp only [List.nil_append, List.cons.injEq] at h5
        rw [← h5.1, k3] at h7
        simp only at h7
        omega
      · subst e
        have hx : x.time < now := h3 x (by simp)
        have h1' : part start size rate val i n = (nans ++ l') ++ x :: (s :: r') := by rw [h1]; simp
        have k4 := part_get h1'
        rw [k4] at hx
        simp only at hx
        have := due_step start size rate (i + (nans ++ l').length)
        rw [show i + (nans ++ (l'.concat x)).length = i + (nans ++ l').length + 1 by simp; omega]
        omega
    have hlow : now ≤ due start size rate (i + (nans ++ late).length) := by rw [k3] at h4; exact h4
    obtain ⟨ids, i', n', a1, a2, a3, a4, a5, a6, a7, a8⟩ := ih _ _ c o now0 k2 hc ho g1 g2
      (fun _ => ⟨c, o, now0, i + (nans ++ late).length, 0, by omega, by omega, by omega, hc, by omega, by omega⟩)
    refine ⟨ids, i', n', a1, by omega, by omega, a4, a5, ?_, a7, a8⟩
    intro p k hp
    obtain ⟨b1, b2, b3⟩ := a6 p k hp
    exact ⟨by omega, b2, b3⟩
  | @play L now q vs r p h0 h1 h2 h3 =>
    intro i n c o now0 hq hc ho g1 g2 g3
    rw [hq] at h1
    obtain ⟨k1, k2⟩ := part_suffix h1
    have k3 := part_prefix h1
    have hl : p.length = L := by have := congrArg List.length h2; simp at this; omega
    rw [hl] at k1 k2 k3
    have hv : vs.map some = (List.range' i L).map val := by rw [← h2, k3]; simp [part]
    have hget : ∀ x k, ((List.range' i L).map some)[x]? = some (some k) → x < L ∧ k = i + x := by
      intro x k hx
      rw [List.getElem?_map] at hx
      rcases Nat.lt_or_ge x L with hlt | hge
      · rw [List.getElem?_range' (by omega)] at hx
        simp at hx
        omega
      · rw [List.getElem?_eq_none (by simp; omega)] at hx; cases hx
    refine ⟨(List.range' i L).map some, i + L, n - L, k2, by omega, by omega, by simp, ?_, ?_, ?_, ?_⟩
    · rw [hv]; simp
    · intro x k hx
      obtain ⟨e1, e2⟩ := hget x k hx
      subst e2
      refine ⟨by omega, by omega, ?_, since_add (g3 rfl) x⟩
      have := congrArg (fun l => l[x]?) hv
      simp only [List.getElem?_map] at this
      rw [List.getElem?_range' (by omega), List.getElem?_eq_getElem (by omega)] at this
      simp at this
      rw [← this]; rfl
    · intro x x' k k' hlt hx hx'
      have := hget x k hx
      have := hget x' k' hx'
      omega
    · intro _
      have e : len * c + o + L = len * c + len := by omega
      exact e ▸ since_add (g3 rfl) L
  | @stop L now q vs r p x out sy q' h0 h1 h2 h3 h4 h5 ih =>
    intro i n c o now0 hq hc ho g1 g2 g3
    rw [hq] at h1
    have hl : p.length = vs.length := by have := congrArg List.length h2; simpa using this
    have k3 := part_prefix h1
    have h1' : part start size rate val i n = (p ++ [x]) ++ r := by rw [h1]; simp
    obtain ⟨k1, k2⟩ := part_suffix h1'
    simp only [List.length_append, List.length_singleton, hl] at k1 k2
    rw [hl] at k3
    have hv : vs.map some = (List.range' i vs.length).map val := by rw [← h2, k3]; simp [part]
    have d1 := dur_add rate o vs.length
    have d2 := dur_add_le rate o vs.length
    have hd0 : vs.length = 0 → samplesDuration rate vs.length = 0 := by intro e; rw [e, dur_zero]
    have hdo : vs.length = 0 → samplesDuration rate (o + vs.length) = samplesDuration rate o := by intro e; rw [e, Nat.add_zero]
    obtain ⟨ids, i', n', a1, a2, a3, a4, a5, a6, a7, a8⟩ := ih _ _ c (o + vs.length) now0 k2 hc (by omega) (by omega)
      (by rcases Nat.eq_zero_or_pos vs.length with e | e
          · have := hd0 e; have := hdo e; omega
          · omega) (by simp)
    have hget : ∀ y k, ((List.range' i vs.length).map some ++ ids)[y]? = some (some k) →
        (y < vs.length ∧ k = i + y) ∨ (vs.length ≤ y ∧ ids[y - vs.length]? = some (some k)) := by
      intro y k hy
      rcases Nat.lt_or_ge y vs.length with hlt | hge
      · rw [List.getElem?_append_left (by simpa using hlt), List.getElem?_map, List.getElem?_range' (by omega)] at hy
        simp at hy
        exact .inl ⟨hlt, by omega⟩
      · rw [List.getElem?_append_right (by simpa using hge)] at hy
        simp only [List.length_map, List.length_range'] at hy
        exact .inr ⟨hge, hy⟩
    refine ⟨(List.range' i vs.length).map some ++ ids, i', n', a1, by omega, by omega, by simp [a4]; omega, ?_, ?_, ?_, a8⟩
    · rw [List.map_append, ← a5, hv]; simp
    · intro y k hy
      rcases hget y k hy with ⟨e1, e2⟩ | ⟨e1, e2⟩
      · subst e2
        refine ⟨by omega, by omega, ?_, since_add (g3 rfl) y⟩
        have := congrArg (fun l => l[y]?) hv
        simp only [List.getElem?_map] at this
        rw [List.getElem?_range' (by omega), List.getElem?_eq_getElem (by omega)] at this
        simp at this
        rw [← this]; rfl
      · obtain ⟨b1, b2, b3, b4⟩ := a6 _ k e2
        refine ⟨by omega, b2, b3, ?_⟩
        rw [show len * c + o + y = len * c + (o + vs.length) + (y - vs.length) by omega]
        exact b4
    · intro y y' k k' hlt hy hy'
      rcases hget y k hy with ⟨e1, e2⟩ | ⟨e1, e2⟩ <;> rcases hget y' k' hy' with ⟨f1, f2⟩ | ⟨f1, f2⟩
      · omega
      · have := (a6 _ k' f2).1; omega
      · omega
      · exact a7 _ _ k k' (by omega) e2 f2

/-- All calls. -/
theorem loop_trace {len : Nat} {nows : List Int} : ∀ (l : List Int) (c i n : Nat) (sy : Bool) (out : List (Option α)) (sy' : Bool)
    (rest : List (TS α)), nows.drop c = l → (sy = false → Since start size rate len nows (len * c) i) →
    playLoop rate len l sy (part start size rate val i n) = some (out, sy', rest) →
    ∃ ids : List (Option Nat), ids.length = len * l.length ∧ out = ids.map (fun x => x.bind val) ∧
      (∀ p k, ids[p]? = some (some k) → i ≤ k ∧ k < i + n ∧ (val k).isSome ∧ Since start size rate len nows (len * c + p) k) ∧
      (∀ p p' k k' : Nat, p < p' → ids[p]? = some (some k) → ids[p']? = some (some k') → k < k') := by
  intro l
  induction l with
  | nil =>
    intro c i n sy out sy' rest _ _ h
    simp only [playLoop, Option.some.injEq, Prod.mk.injEq] at h
    exact ⟨[], rfl, by simp [← h.1], by simp, by simp⟩
  | cons now l ih =>
    intro c i n sy out sy' rest hl hs h
    simp only [playLoop] at h
    split at h
    · cases h
    · rename_i o1 s1 q1 e1
      split at h
      · cases h
      · rename_i o2 s2 q2 e2
        simp only [Option.some.injEq, Prod.mk.injEq] at h
        obtain ⟨rfl, -, -⟩ := h
        have hc : nows[c]? = some now := by
          have := congrArg List.head? hl
          simpa using this
        have hl' : nows.drop (c + 1) = l := by
          rw [← List.drop_drop, hl]; rfl
        obtain ⟨ids, i', n', a1, a2, a3, a4, a5, a6, a7, a8⟩ := run_trace (nows := nows) (stream_run e1) i n c 0 now rfl hc (by omega)
          (by rw [dur_zero]; omega) (by rw [dur_zero]; omega) hs
        subst a1
        obtain ⟨ids', b1, b2, b3, b4⟩ := ih (c + 1) i' n' s1 o2 s2 q2 hl' a8 e2
        have hget : ∀ y k, (ids ++ ids')[y]? = some (some k) →
            (y < len ∧ ids[y]? = some (some k)) ∨ (len ≤ y ∧ ids'[y - len]? = some (some k)) := by
          intro y k hy
          rcases Nat.lt_or_ge y len with hlt | hge
          · rw [List.getElem?_append_left (by omega)] at hy; exact .inl ⟨hlt, hy⟩
          · rw [List.getElem?_append_right (by omega), a4] at hy; exact .inr ⟨hge, hy⟩
        refine ⟨ids ++ ids', by simp [a4, b1, Nat.mul_add]; omega, by rw [List.map_append, a5, b2], ?_, ?_⟩
        · intro y k hy
          rcases hget y k hy with ⟨f1, f2⟩ | ⟨f1, f2⟩
          · obtain ⟨g1, g2, g3, g4⟩ := a6 y k f2
            exact ⟨by omega, by omega, g3, g4⟩
          · obtain ⟨g1, g2, g3, g4⟩ := b3 _ k f2
            refine ⟨by omega, by omega, g3, ?_⟩
            rw [show len * c + y = len * (c + 1) + (y - len) by rw [Nat.mul_add]; omega]
            exact g4
        · intro y y' k k' hlt hy hy'
          rcases hget y k hy with ⟨f1, f2⟩ | ⟨f1, f2⟩ <;> rcases hget y' k' hy' with ⟨g1, g2⟩ | ⟨g1, g2⟩
          · exact a7 _ _ _ _ hlt f2 g2
          · have := (a6 _ k f2).2.1; have := (b3 _ k' g2).1; omega
          · omega
          · exact b4 _ _ _ _ (by omega) f2 g2

end

/-- C129. A player that begins by synchronising is called at any times, on a buffer that holds any part of the stream. What it writes
are samples of the stream or silence (`ids` tells which, slot by slot), in the order of the stream, none twice, and each is on time. -/
theorem C129_on_time (rate len size : Nat) (start : Int) (val : Nat → Option α) (a n : Nat) (nows : List Int)
    (out : List (Option α)) (sy' : Bool) (rest : List (TS α))
    (h : playLoop rate len nows true (part start size rate val a n) = some (out, sy', rest)) :
    ∃ ids : List (Option Nat), ids.length = len * nows.length ∧ out = ids.map (fun x => x.bind val) ∧
      (∀ p k, ids[p]? = some (some k) → a ≤ k ∧ k < a + n ∧ (val k).isSome ∧ Since start size rate len nows p k) ∧
      (∀ p p' k k' : Nat, p < p' → ids[p]? = some (some k) → ids[p']? = some (some k') → k < k') := by
  obtain ⟨ids, h1, h2, h3, h4⟩ := loop_trace (nows := nows) nows 0 a n true out sy' rest (by simp) (by simp) h
  refine ⟨ids, h1, h2, ?_, h4⟩
  intro p k hp
  have := h3 p k hp
  simpa using this

/-- Specification: the sound device takes samples at their rate, up to a jitter `J`: so much time passes between two calls, by the
player's clock. -/
def Steady (rate len : Nat) (J : Int) (nows : List Int) : Prop :=
  ∀ (c c' : Nat) (x y : Int), c ≤ c' → nows[c]? = some x → nows[c']? = some y →
    x + samplesDuration rate (len * (c' - c)) - J ≤ y ∧ y ≤ x + samplesDuration rate (len * (c' - c)) + J

theorem borders (size k m : Nat) : (k + m) / size - k / size ≤ m / size + 1 := by
  rcases Nat.eq_zero_or_pos size with h | h
  · subst h; simp
  · have e1 := Nat.div_add_mod k size
    have e2 := Nat.div_add_mod m size
    have l1 := Nat.mod_lt k h
    have l2 := Nat.mod_lt m h
    have : (k + m) / size ≤ k / size + m / size + 1 := by
      refine Nat.le_of_lt_succ ((Nat.div_lt_iff_lt_mul h).2 ?_)
      rw [show (k / size + m / size + 1).succ = k / size + m / size + 2 by omega, Nat.add_mul, Nat.add_mul,
        Nat.mul_comm (k / size), Nat.mul_comm (m / size)]
      omega
    generalize (k + m) / size = u at *
    generalize k / size = v at *
    generalize m / size = w at *
    omega

theorem since_clock {rate len size : Nat} {start J : Int} {nows : List Int} {p k : Nat} {y : Int} (hs : Steady rate len J nows)
    (h : Since start size rate len nows p k) (hy : nows[p / len]? = some y) :
    y + samplesDuration rate (p % len) ≤ due start size rate k + J + len + (p / size : Nat) + 1 ∧
    due start size rate k ≤ y + samplesDuration rate (p % len) + J + samplesDuration rate 1 + 3 := by
  obtain ⟨c, o, now, k0, m, h1, h2, h3, h4, h5, h6⟩ := h
  have hl : 0 < len := by omega
  have e := Nat.div_add_mod p len
  have hc : c ≤ p / len := by
    rw [Nat.le_div_iff_mul_le hl, Nat.mul_comm]; omega
  obtain ⟨g1, g2⟩ := hs c (p / len) now y hc h4 hy
  have e2 : len * (p / len - c) + p % len = o + m := by
    rw [Nat.mul_sub]
    have : len * c ≤ len * (p / len) := Nat.mul_le_mul_left _ hc
    omega
  have d1 := dur_add rate (len * (p / len - c)) (p % len)
  have d2 := dur_add_le rate (len * (p / len - c)) (p % len)
  rw [e2] at d1 d2
  have d3 := dur_add rate o m
  have d4 := dur_add_le rate o m
  obtain ⟨b1, b2⟩ := due_diff start size rate k0 m
  rw [← h3] at b1 b2
  have b3 := borders size k0 m
  rw [← h3] at b3
  have b4 : m / size ≤ p / size := Nat.div_le_div_right (by omega)
  omega

/-- C129, by the clock: if the sound device takes samples at their rate, every sample is written in a slot whose time on the player's
clock is the time it is due, up to a sample, the jitter of the device, a nanosecond per slot of a call and a nanosecond per chunk. -/
theorem C129_clock (rate len size : Nat) (start J : Int) (val : Nat → Option α) (a n : Nat) (nows : List Int)
    (hs : Steady rate len J nows) (out : List (Option α)) (sy' : Bool) (rest : List (TS α))
    (h : playLoop rate len nows true (part start size rate val a n) = some (out, sy', rest)) :
    ∃ ids : List (Option Nat), ids.length = len * nows.length ∧ out = ids.map (fun x => x.bind val) ∧
      (∀ p p' k k' : Nat, p < p' → ids[p]? = some (some k) → ids[p']? = some (some k') → k < k') ∧
      ∀ p k y, ids[p]? = some (some k) → nows[p / len]? = some y →
        a ≤ k ∧ k < a + n ∧ (val k).isSome ∧
        y + samplesDuration rate (p % len) ≤ due start size rate k + J + len + (p / size : Nat) + 1 ∧
        due start size rate k ≤ y + samplesDuration rate (p % len) + J + samplesDuration rate 1 + 3 := by
  obtain ⟨ids, h1, h2, h3, h4⟩ := C129_on_time rate len size start val a n nows out sy' rest h
  refine ⟨ids, h1, h2, h4, ?_⟩
  intro p k y hp hy
  obtain ⟨g1, g2, g3, g4⟩ := h3 p k hp
  exact ⟨g1, g2, g3, since_clock hs g4 hy⟩

/-- C129, two players. Both hold parts of the same stream, with songs, breaks and pauses in any order; each has its own sound device,
buffer size and clock. Every sample both play is played at times of the server's clock (`uA`, `uB` are the times at which the calls
were made, the players' clocks being at most `eA` and `eB` wrong then) that differ by at most the errors of the clocks, the jitters of the
devices, one sample, a nanosecond per slot of a call and a nanosecond per chunk. -/
theorem C129_players (rate lenA lenB size : Nat) (start JA JB : Int) (val : Nat → Option α) (aA nA aB nB : Nat) (nowsA nowsB : List Int)
    (hA : Steady rate lenA JA nowsA) (hB : Steady rate lenB JB nowsB) (outA outB : List (Option α)) (syA syB : Bool) (restA restB : List (TS α))
    (pA : playLoop rate lenA nowsA true (part start size rate val aA nA) = some (outA, syA, restA))
    (pB : playLoop rate lenB nowsB true (part start size rate val aB nB) = some (outB, syB, restB)) :
    ∃ idsA idsB : List (Option Nat), outA = idsA.map (fun x => x.bind val) ∧ outB = idsB.map (fun x => x.bind val) ∧
      ∀ (p q k : Nat) (x y uA uB eA eB : Int), idsA[p]? = some (some k) → idsB[q]? = some (some k) → (val k).isSome ∧
        (nowsA[p / lenA]? = some x → nowsB[q / lenB]? = some y →
          -eA ≤ x - uA → x - uA ≤ eA → -eB ≤ y - uB → y - uB ≤ eB →
          ((uA + samplesDuration rate (p % lenA)) - (uB + samplesDuration rate (q % lenB))).natAbs ≤
            eA + eB + JA + JB + samplesDuration rate 1 + lenA + lenB + (p / size + q / size : Nat) + 4) := by
  obtain ⟨idsA, -, a2, a3, -⟩ := C129_on_time rate lenA size start val aA nA nowsA outA syA restA pA
  obtain ⟨idsB, -, b2, b3, -⟩ := C129_on_time rate lenB size start val aB nB nowsB outB syB restB pB
  refine ⟨idsA, idsB, a2, b2, ?_⟩
  intro p q k x y uA uB eA eB hp hq
  obtain ⟨-, -, c1, c2⟩ := a3 p k hp
  obtain ⟨-, -, -, d2⟩ := b3 q k hq
  refine ⟨c1, ?_⟩
  intro hx hy e1 e2 e3 e4
  have f1 := since_clock hA c2 hx
  have f2 := since_clock hB d2 hy
  have f3 := dur_nonneg rate 1
  generalize p / size = P at *
  generalize q / size = Q at *
  obtain ⟨D, hd⟩ : ∃ D, D = uA + samplesDuration rate (p % lenA) - (uB + samplesDuration rate (q % lenB)) := ⟨_, rfl⟩
  rw [← hd]
  have hD : D ≤ eA + eB + JA + JB + samplesDuration rate 1 + lenA + lenB + (P + Q : Nat) + 4 := by omega
  have hE : -D ≤ eA + eB + JA + JB + samplesDuration rate 1 + lenA + lenB + (P + Q : Nat) + 4 := by omega
  omega

/-! ## C130 -/

open MS.StreamLoop (Cfg)
open MS.PlaylistRun MS.PauseHeard
open MS.Pipeline (received heard)

variable {β : Type}

/-- Specification: sample `j` of the server's stream as a player hears it; NaN (`none`) in the first channel is silence. -/
def heardAt (s : St (Option β)) (j : Nat) : Option (β × Option β) :=
  ((stream s)[j]?).bind (fun x => heard (value none x))

/-- What the messages carry, sample by sample. -/
theorem message_values {cap size : Nat} {s : St (Option β)} (h : Inv none cap s) (hz : Sized size s.chans) {start delay : Int} {rate : Nat}
    {n : Nat} (hn : n < s.chans.chunks.length) :
    ∃ q i, (messages start delay size rate s.chans.chunks)[n]? = some (q, i) ∧ q.startTime = start + delay + n * chunkTime size rate ∧
      q.low.length = size ∧ ∀ j, j < size → ∃ x, (stream s)[n * size + j]? = some x ∧ q.low[j]? = some (value none x).1 ∧
        q.high[j]? = some (value none x).2 := by
  have hl : n < (messages start delay size rate s.chans.chunks).length := by
    rw [MS.StreamMusic.messages, MS.StreamMusic.messagesFrom_length]; exact hn
  obtain ⟨⟨q, i⟩, hq⟩ : ∃ x, (messages start delay size rate s.chans.chunks)[n]? = some x :=
    ⟨_, List.getElem?_eq_getElem hl⟩
  obtain ⟨⟨fi, lo, hi⟩, x1, x2, x3, x4⟩ := message hq
  simp only at x3 x4
  have hx := MS.PauseHeard.windows_index _ _ (chunks_windows h) hz.1 n _ x1
  simp only [Nat.zero_add] at hx
  have hmem : (fi, lo, hi) ∈ s.chans.chunks := List.mem_of_getElem? x1
  have hlen : lo.length = size := hz.1 _ hmem
  refine ⟨q, i, hq, x2, by rw [x3]; exact hlen, ?_⟩
  intro j hj
  obtain ⟨g1, g2⟩ := windows_get (chunks_windows h) hmem (j := j) (by omega)
  rw [hx] at g1 g2
  have hlt : n * size + j < (stream s).length := by
    have : (lo[j]?).isSome := by simp [hlen, hj]
    rw [g1] at this
    simpa using this
  refine ⟨(stream s)[n * size + j], List.getElem?_eq_getElem hlt, ?_, ?_⟩
  · rw [x3, g1]; simp [hlt]
  · rw [x4, g2]; simp [hlt]

/-- The buffer of a player. -/
theorem adds_part {cap size : Nat} {s : St (Option β)} (h : Inv none cap s) (hz : Sized size s.chans) (start delay : Int) (rate : Nat)
    (racts : List (MS.ReadChunks.Act (β × Option β))) (r : MS.ReadChunks.St (β × Option β))
    (hr : MS.ReadChunks.run (MS.ReadChunks.init rate) racts = some r) (a n : Nat) (han : a + n ≤ s.chans.chunks.length)
    (harr : MS.ReadChunks.arrivals racts =
      (((messages start delay size rate s.chans.chunks).map (fun m => received m.1)).drop a).take n) :
    r.adds <+: part (start + delay) size rate (heardAt s) (a * size) (n * size) := by
  have hpre := MS.ReadChunks.C20_adds_prefix rate racts r hr
  have hlen : (messages start delay size rate s.chans.chunks).length = s.chans.chunks.length := MS.StreamMusic.messagesFrom_length _ _ _ _ _
  have key : ∀ m, m < s.chans.chunks.length → ∃ c, ((messages start delay size rate s.chans.chunks).map (fun m => received m.1))[m]? = some c ∧
      MS.ReadChunks.stamped rate c = (List.range' (m * size) size).map (fun j => ⟨heardAt s j, due (start + delay) size rate j⟩) := by
    intro m hm
    obtain ⟨q, i, g1, g2, g3, g4⟩ := message_values h hz (start := start) (delay := delay) (rate := rate) hm
    refine ⟨received q, by rw [List.getElem?_map, g1]; rfl, ?_⟩
    have hh : size ≤ q.high.length := by
      refine Classical.byContradiction fun hlt => ?_
      obtain ⟨x, -, -, y⟩ := g4 q.high.length (by omega)
      simp at y
    have hcl : (received q).samples.length = size := by
      simp only [received, MS.Pipeline.combine_zip, List.length_map, List.length_zip]; omega
    apply List.ext_getElem?
    intro i
    rcases Nat.lt_or_ge i size with hi | hi
    · obtain ⟨x, y1, y2, y3⟩ := g4 i hi
      have e1 : (m * size + i) / size = m := by
        rw [Nat.add_comm, Nat.add_mul_div_right _ _ (by omega), Nat.div_eq_of_lt hi]; omega
      have e2 : (m * size + i) % size = i := by
        rw [Nat.add_comm, Nat.add_mul_mod_self_right, Nat.mod_eq_of_lt hi]
      have hz : (q.low.zip q.high)[i]? = some ((value none x).1, (value none x).2) := by
        rw [List.getElem?_zip_eq_some]; exact ⟨y2, y3⟩
      rw [List.getElem?_map, List.getElem?_range' hi]
      simp only [Option.map_some, Nat.one_mul, heardAt, y1, Option.bind_some, due, e1, e2]
      simp only [MS.ReadChunks.stamped, List.getElem?_zipWith, hcl, List.getElem?_range hi, received, MS.Pipeline.combine_zip,
        List.getElem?_map, hz, Option.map_some]
      rw [MS.ReadChunks.dur_spec, g2, List.getElem?_range (by simp; omega)]
    · rw [List.getElem?_eq_none (by simp [MS.ReadChunks.stamped, hcl]; omega), List.getElem?_eq_none (by simp; omega)]
  refine hpre.trans ?_
  rw [harr]
  have e : ((((messages start delay size rate s.chans.chunks).map (fun m => received m.1)).drop a).take n).flatMap (MS.ReadChunks.stamped rate) =
      (List.range' a n).flatMap (fun m => (List.range' (m * size) size).map (fun j => ⟨heardAt s j, due (start + delay) size rate j⟩)) := by
    generalize hM : (messages start delay size rate s.chans.chunks).map (fun m => received m.1) = M at key
    have hMl : M.length = s.chans.chunks.length := by rw [← hM, List.length_map, hlen]
    clear harr hM
    induction n generalizing a with
    | zero => simp
    | succ n ih =>
      obtain ⟨c, c1, c2⟩ := key a (by omega)
      rw [List.range'_succ, List.flatMap_cons, ← ih (a + 1) (by omega)]
      have hlt : a < M.length := by omega
      rw [List.drop_eq_getElem_cons hlt, List.take_succ_cons, List.flatMap_cons]
      rw [List.getElem?_eq_getElem hlt] at c1
      injection c1 with c1
      rw [c1, c2]
  rw [e, MS.Pipeline.flatMap_windows]
  exact List.prefix_refl _

/-- Specification: what the player has done. It has handled the audio messages from the `a`-th on in order, `n` of them, in any
interleaving with its reader; it is called for `len` samples at the times `nows` of its clock, `jitter` off the rate of the samples,
and has written `out`. -/
structure Player (start delay : Int) (size rate : Nat) (chunks : List (Nat × List (Option β) × List (Option β))) (len : Nat)
    (jitter : Int) (nows : List Int) (out : List (Option (β × Option β))) : Prop where
  gets : ∃ racts r a n buffer, MS.ReadChunks.run (MS.ReadChunks.init rate) racts = some r ∧ a + n ≤ chunks.length ∧
    MS.ReadChunks.arrivals racts = (((messages start delay size rate chunks).map (fun m => received m.1)).drop a).take n ∧
    buffer <+: r.adds ∧ ∃ sy rest, playLoop rate len nows true buffer = some (out, sy, rest)
  steady : Steady rate len jitter nows

/-- If everything due after `B` is silence in the messages, it is on the players. -/
theorem silent {cap size : Nat} {s : St (Option β)} (h : Inv none cap s) (hz : Sized size s.chans) {start delay jitter B : Int}
    {rate len : Nat} {nows : List Int} {out : List (Option (β × Option β))}
    (hp : Player start delay size rate s.chans.chunks len jitter nows out)
    (hB : ∀ (n : Nat) (q : MS.StreamMusic.QueueChunk (Option β)) (i : MS.StreamMusic.ChunkInfo), (messages start delay size rate s.chans.chunks)[n]? = some (q, i) → ∀ j, j < q.low.length →
      B < q.startTime + samplesDuration rate j → q.low[j]? = some none)
    (p : Nat) (y : Int) (hy : nows[p / len]? = some y)
    (hlate : B + jitter + len + (p / size : Nat) + 1 < y + samplesDuration rate (p % len)) : out[p]? = some none ∨ len = 0 := by
  rcases Nat.eq_zero_or_pos len with hl | hl
  · exact .inr hl
  left
  obtain ⟨⟨racts, r, a, n, buffer, p1, p2, p3, p4, sy, rest, p5⟩, p6⟩ := hp
  have hpre := p4.trans (adds_part h hz start delay rate racts r p1 a n p2 p3)
  obtain ⟨t, ht⟩ := hpre
  have hb := part_prefix ht.symm
  have hbl : buffer.length ≤ n * size := by
    have := congrArg List.length ht
    rw [part_length, List.length_append] at this
    omega
  rw [hb] at p5
  obtain ⟨ids, i1, i2, -, i4⟩ := C129_clock rate len size (start + delay) jitter (heardAt s) _ _ nows p6 out sy rest p5
  have hplt : p < ids.length := by
    have : p / len < nows.length := by
      refine Classical.byContradiction fun hge => ?_
      rw [List.getElem?_eq_none (by omega)] at hy; cases hy
    rw [i1, Nat.mul_comm]
    exact (Nat.div_lt_iff_lt_mul hl).1 this
  rw [i2, List.getElem?_map, List.getElem?_eq_getElem hplt]
  cases hk : ids[p] with
  | none => rfl
  | some k =>
    exfalso
    obtain ⟨k1, k2, k3, k4, -⟩ := i4 p k y (by rw [List.getElem?_eq_getElem hplt, hk]) hy
    have hs : 0 < size := by
      refine Nat.pos_of_ne_zero fun h0 => ?_
      subst h0; simp at k1 k2; omega
    have hkn : k / size < s.chans.chunks.length := by
      refine (Nat.div_lt_iff_lt_mul hs).2 ?_
      have : (a + n) * size ≤ s.chans.chunks.length * size := Nat.mul_le_mul_right _ p2
      rw [Nat.add_mul] at this
      omega
    obtain ⟨q, i, q1, q2, q3, q4⟩ := message_values h hz (start := start) (delay := delay) (rate := rate) hkn
    have hmod := Nat.mod_lt k hs
    obtain ⟨x, x1, x2, -⟩ := q4 (k % size) hmod
    have hkk : k / size * size + k % size = k := by rw [Nat.mul_comm]; exact Nat.div_add_mod k size
    rw [hkk] at x1
    have hnone := hB _ q i q1 (k % size) (by omega) (by rw [q2]; unfold due at k4; omega)
    rw [x2] at hnone
    injection hnone with hnone
    unfold heardAt at k3
    rw [x1] at k3
    simp only [Option.bind_some] at k3
    rw [show value none x = ((value none x).1, (value none x).2) from rfl, hnone] at k3
    simp [heard] at k3

/-- C130, pausing. At time `T` the playlist is paused and stays so. The slots into which a player writes music (in calls that return) are, on
its clock, not later than `T` plus the stream delay, the time the channels hold, a block of 512 samples, the jitter of its sound device,
and a nanosecond per slot of a call and per chunk. What is missing: a slot is timed from the start of its call, but handed to the device
when the call returns (`C130_held_back`). -/
theorem C130_pause_partial (c : Cfg (Option β × Option β)) (cap : Nat) (songs : List String) (as as' : List Act) (s s' : St (Option β))
    (start t0 delay T jitter : Int) (size rate len : Nat) (ds : List Int) (hP : 0 < chunkTime size rate) (hd : ∀ d ∈ ds, 0 ≤ d)
    (h : run none c (init cap songs) as = some s) (h' : run none c s as' = some s') (hz : Asks size as) (hz' : Asks size as')
    (hT : At (chunkTime size rate) t0 T ds s) (hp : s.pl.playing = false) (hr : .setPlaying true ∉ as')
    (nows : List Int) (out : List (Option (β × Option β))) (hl : 0 < len)
    (hplayer : Player start delay size rate s'.chans.chunks len jitter nows out) (p : Nat) (x : β × Option β)
    (hx : out[p]? = some (some x)) (y : Int) (hy : nows[p / len]? = some y) :
    y + samplesDuration rate (p % len) ≤
      T + delay - (t0 - start) + samplesDuration rate (cap + 512) + jitter + len + (p / size : Nat) + 1 := by
  have h1 := (run_sim as (inv_init none cap songs) h).1
  have h2 := (run_sim as' h1 h').1
  have z1 := sized_run as (s := init cap songs) ⟨by simp [init, Fill.init], by simp [init, Fill.init]⟩ hz h
  have z2 := sized_run as' z1 hz' h'
  refine Classical.byContradiction fun hlate => ?_
  rcases silent h2 z2 hplayer (B := T + delay - (t0 - start) + samplesDuration rate (cap + 512))
    (fun n q i hm j hj hdue => (C128_pause none c cap songs as as' s s' start t0 delay T size rate ds hP hd h h' hz hz' hT hp hr n q i hm
      j hj hdue).1) p y hy (by omega) with g | g
  · rw [hx] at g; cases g
  · omega

/-- C130, jumping. At time `T` a jump has been accepted while a song is streamed. As long as no other song has been announced, the same
holds with a second block. -/
theorem C130_jump_partial (c : Cfg (Option β × Option β)) (cap : Nat) (songs : List String) (as as' : List Act) (s s' : St (Option β))
    (start t0 delay T jitter : Int) (size rate len : Nat) (ds : List Int) (hP : 0 < chunkTime size rate) (hd : ∀ d ∈ ds, 0 ≤ d)
    (h : run none c (init cap songs) as = some s) (h' : run none c s as' = some s') (hz : Asks size as) (hz' : Asks size as')
    (hT : At (chunkTime size rate) t0 T ds s) (hs : rest s.pl.pc ≠ none) (ht : 0 < s.pl.tokens)
    (hnews : s'.pl.news.length ≤ s.pl.news.length)
    (nows : List Int) (out : List (Option (β × Option β))) (hl : 0 < len)
    (hplayer : Player start delay size rate s'.chans.chunks len jitter nows out) (p : Nat) (x : β × Option β)
    (hx : out[p]? = some (some x)) (y : Int) (hy : nows[p / len]? = some y) :
    y + samplesDuration rate (p % len) ≤
      T + delay - (t0 - start) + samplesDuration rate (cap + 1024) + jitter + len + (p / size : Nat) + 1 := by
  have h1 := (run_sim as (inv_init none cap songs) h).1
  have h2 := (run_sim as' h1 h').1
  have z1 := sized_run as (s := init cap songs) ⟨by simp [init, Fill.init], by simp [init, Fill.init]⟩ hz h
  have z2 := sized_run as' z1 hz' h'
  refine Classical.byContradiction fun hlate => ?_
  rcases silent h2 z2 hplayer (B := T + delay - (t0 - start) + samplesDuration rate (cap + 1024))
    (fun n q i hm j hj hdue => (C128_jump none c cap songs as as' s s' start t0 delay T size rate ds hP hd h h' hz hz' hT hs ht hnews n q i hm
      j hj hdue).1) p y hy (by omega) with g | g
  · rw [hx] at g; cases g
  · omega

theorem skip_all {q : List (TS α)} (h : ∀ x ∈ q, x.val = none) : skipNaN q = none := by
  induction q with
  | nil => rfl
  | cons x q ih => simp only [skipNaN, h x (by simp)]; exact ih (fun y hy => h y (by simp [hy]))

theorem direct_stop {k : Nat} {p r : List (TS α)} {vs : List α} {x : TS α} (h : p.map (·.val) = vs.map some) (hk : vs.length < k)
    (hx : x.val = none) : streamDirect k (p ++ x :: r) = some (vs, true, r) := by
  induction p generalizing vs k with
  | nil =>
    cases vs with
    | nil => cases k with
      | zero => simp at hk
      | succ k => simp [streamDirect, hx]
    | cons => simp at h
  | cons y p ih =>
    cases vs with
    | nil => simp at h
    | cons v vs =>
      simp only [List.map_cons, List.cons.injEq] at h
      cases k with
      | zero => simp at hk
      | succ k =>
        simp only [List.cons_append, streamDirect, h.1]
        rw [ih h.2 (by simpa using hk)]

/-- C130, what is wrong. A player is playing; in its buffer are `vs`, the last samples before a pause, less than a call's worth, and markers
only after them. Its call does not return, however many markers come. It returns when a sample `f` from after the pause has come, which
is due later than the slots: then `vs`, the end of what was played before the pause, is handed to the sound device, followed by silence. -/
theorem C130_held_back (rate len : Nat) (now : Int) (p : List (TS α)) (vs : List α) (hv : p.map (·.val) = vs.map some)
    (hl : vs.length < len) (m : TS α) (nans : List (TS α)) (hm : m.val = none) (hn : ∀ x ∈ nans, x.val = none) :
    stream rate len now false (p ++ m :: nans) = none ∧
    ∀ (f : TS α) (r : List (TS α)), f.val.isSome → now + samplesDuration rate vs.length < f.time + samplesDuration rate (len - vs.length) →
      stream rate len now false (p ++ m :: (nans ++ f :: r)) =
        some (vs.map some ++ List.replicate (len - vs.length) none, true, f :: r) := by
  have hsync : ∀ (L : Nat) (t : Int), L ≠ 0 → stream rate L t true nans = none := by
    intro L t hL
    rw [Streamer.stream, if_neg hL, dif_pos rfl]
    have : streamSync rate L t nans = none := by unfold streamSync; rw [skip_all hn]
    split
    · rfl
    · rename_i h; rw [this] at h; cases h
  constructor
  · rw [Streamer.stream, if_neg (by omega), dif_neg (by simp)]
    have e := direct_stop (r := nans) hv hl hm
    split
    · rfl
    · rename_i vs' d r' h
      rw [e] at h
      simp only [Option.some.injEq, Prod.mk.injEq] at h
      obtain ⟨rfl, rfl, rfl⟩ := h
      rw [dif_pos rfl]
      split
      · rfl
      · rw [hsync _ _ (by omega)]
  · intro f r hf ht
    rw [Streamer.stream, if_neg (by omega), dif_neg (by simp)]
    have e := direct_stop (r := nans ++ f :: r) hv hl hm
    split
    · rename_i h; rw [e] at h; cases h
    · rename_i vs' d r' h
      rw [e] at h
      simp only [Option.some.injEq, Prod.mk.injEq] at h
      obtain ⟨rfl, rfl, rfl⟩ := h
      rw [dif_pos rfl, if_neg (by simp)]
      have e2 : stream rate (len - vs.length) (now + samplesDuration rate vs.length) true (nans ++ f :: r) =
          some (List.replicate (len - vs.length) none, true, f :: r) := by
        rw [Streamer.stream, if_neg (by omega), dif_pos rfl]
        have : streamSync rate (len - vs.length) (now + samplesDuration rate vs.length) (nans ++ f :: r) =
            some (len - vs.length, false, f :: r) := by
          unfold streamSync
          rw [skipNaN_append hn hf]
          simp only
          rw [if_pos ht]
        split
        · rename_i h; rw [this] at h; cases h
        · rename_i n d' r'' h
          rw [this] at h
          simp only [Option.some.injEq, Prod.mk.injEq] at h
          obtain ⟨rfl, rfl, rfl⟩ := h
          simp
      rw [e2]

/-! ## The hypotheses can be met -/

/-- A sound device that takes samples exactly at their rate is steady, up to the rounding. -/
theorem steady_exact (rate len K : Nat) (t : Int) :
    Steady rate len 1 ((List.range K).map (fun c => t + samplesDuration rate (len * c))) := by
  intro c c' x y hc hx hy
  have hk : c' < K := by
    refine Classical.byContradiction fun hge => ?_
    rw [List.getElem?_eq_none (by simp; omega)] at hy; cases hy
  rw [List.getElem?_map, List.getElem?_range (by omega)] at hx hy
  simp only [Option.map_some, Option.some.injEq] at hx hy
  have e : len * c' = len * c + len * (c' - c) := by rw [Nat.mul_sub]; have := Nat.mul_le_mul_left len hc; omega
  have d1 := dur_add rate (len * c) (len * (c' - c))
  have d2 := dur_add_le rate (len * c) (len * (c' - c))
  rw [← e] at d1 d2
  omega

/-- A sample a second; samples 2 and 3 are a break. -/
def exVal (i : Nat) : Option Nat := if i = 2 ∨ i = 3 then none else some i

/-- The player is called at seconds 2, 4, 6, 8: it finds the break, waits, and plays the second song on time. -/
theorem ex_play : (playLoop 1 2 ((List.range 4).map (fun c => 2000000000 + samplesDuration 1 (2 * c))) true
    (part 0 2 1 exVal 0 12)).map (fun x => x.1) =
    some [none, none, none, none, some 6, some 7, some 8, some 9] := by
  simp only [Option.map]
  decide +kernel

/-- The last sample before a pause is held back until a sample from after the pause has come. -/
theorem ex_held : Streamer.stream 1 2 0 false [⟨some 1, 0⟩, ⟨none, 1⟩, ⟨none, 2⟩, ⟨none, 3⟩] = (none : Option (List (Option Nat) × _)) ∧
    Streamer.stream 1 2 0 false [⟨some 1, 0⟩, ⟨none, 1⟩, ⟨none, 2⟩, ⟨none, 3⟩, ⟨some 2, 4⟩] =
      some ([some 1, none], true, [⟨some 2, 4⟩]) := by
  constructor
  · exact (C130_held_back 1 2 0 [⟨some 1, 0⟩] [1] rfl (by decide) ⟨none, 1⟩ [⟨none, 2⟩, ⟨none, 3⟩] rfl (by simp)).1
  · exact (C130_held_back 1 2 0 [⟨some 1, 0⟩] [1] rfl (by decide) ⟨none, 1⟩ [⟨none, 2⟩, ⟨none, 3⟩] rfl (by simp)).2 ⟨some 2, 4⟩ [] rfl
      (by decide)

/-- A song of four samples. -/
def exSong : Cfg (Option Nat × Option Nat) :=
  { dec := fun x => if x = "a" then some [(some 1, some 2), (some 3, some 4), (some 5, some 6), (some 7, some 8)] else none, brk := 2 }

/-- It is streamed, two chunks of two samples are read, and the playlist is paused. -/
def exActs : List Act :=
  [.setPlaying true, .loop, .loop, .loop, .loop, .loop, .fill 2, .loop, .loop, .readLow, .readHigh, .loop, .loop, .readLow, .readHigh, .ret,
    .fill 2, .loop, .loop, .readLow, .readHigh, .loop, .loop, .readLow, .readHigh, .ret, .setPlaying false]

def exChunks : List (Nat × List (Option Nat) × List (Option Nat)) :=
  [(0, [some 1, some 3], [some 2, some 4]), (2, [some 5, some 7], [some 6, some 8])]

theorem ex_server : (run none exSong (init 4 ["a"]) exActs).map (fun s => (s.chans.chunks, s.pl.playing)) = some (exChunks, false) := by
  rfl

set_option synthInstance.maxSize 2000 in
/-- A player handles both chunks and is called for a sample at seconds 1, 2 and 3: it plays the second, third and fourth sample. -/
theorem ex_player : Player 0 0 2 1 exChunks 1 1 ((List.range 3).map (fun c => 1000000000 + samplesDuration 1 (1 * c)))
    [some (3, some 4), some (5, some 6), some (7, some 8)] := by
  refine ⟨⟨[.queue ⟨0, [some (1, some 2), some (3, some 4)]⟩, .queue ⟨2000000000, [some (5, some 6), some (7, some 8)]⟩] ++
      List.replicate 12 .reader, _, 0, 2, part 0 2 1 (fun i => if i < 4 then some (2 * i + 1, some (2 * i + 2)) else none) 0 4, rfl, by decide,
      rfl, ⟨[], rfl⟩, false, [], ?_⟩, steady_exact _ _ _ _⟩
  have h : (playLoop 1 1 ((List.range 3).map (fun c => 1000000000 + samplesDuration 1 (1 * c))) true
      (part 0 2 1 (fun i => if i < 4 then some (2 * i + 1, some (2 * i + 2)) else none) 0 4)) =
      (some ([some (3, some 4), some (5, some 6), some (7, some 8)], false, []) :
        Option (List (Option (Nat × Option Nat)) × Bool × List (TS (Nat × Option Nat)))) := by
    decide +kernel
  exact h

end MS.OnTime
