import Verif.Props.OnTime
/-!
# C135: a player with another sample rate than the server's

A player does not learn the server's sample rate: it takes `--sample-rate` (cmd/music-sync-player/main.go:25, 40, 43) and uses it for the
device, for the times it gives the samples of a chunk (playback/streamer.go:87, 99-101) and in `Stream`. The server's messages are spaced
by the server's rate. What this does to C129.
-/
set_option linter.unusedSimpArgs false
set_option linter.unusedVariables false
namespace MS.WrongRate
open MS.Streamer MS.InSync
open MS.StreamMusic (chunkTime messages)
open MS.OnTime (Steady)

variable {α : Type}

/-- Specification: samples `a`, ..., `a + n - 1` of a stream with markers (`none`), with their due times. -/
def part (tm : Nat → Int) (val : Nat → Option α) (a n : Nat) : List (TS α) :=
  (List.range' a n).map (fun i => ⟨val i, tm i⟩)

/-- Specification: the player that is called at `nows`, each time for `len` samples, is on time with sample `k` in slot `p`: it
has synchronised in slot `o` of a call, that is at `now + dur o`, up to a nanosecond per slot of this call, with a sample due between this
time and one sample later, and it has written one sample per slot since; there was no marker since. -/
def Since (tm : Nat → Int) (G : Int) (rate len : Nat) (nows : List Int) (val : Nat → Option α) (p k : Nat) : Prop :=
  ∃ c o now k0 m, p = len * c + o + m ∧ o < len ∧ k = k0 + m ∧ nows[c]? = some now ∧
    now + samplesDuration rate o ≤ tm k0 + o ∧
    tm k0 ≤ now + samplesDuration rate o + G ∧ ∀ i, k0 ≤ i → i < k → (val i).isSome

theorem since_add {tm : Nat → Int} {G : Int} {rate len : Nat} {nows : List Int} {val : Nat → Option α} {p k : Nat}
    (h : Since tm G rate len nows val p k) (j : Nat) (hj : ∀ i, i < j → (val (k + i)).isSome) :
    Since tm G rate len nows val (p + j) (k + j) := by
  obtain ⟨c, o, now, k0, m, h1, h2, h3, h4, h5, h6, h7⟩ := h
  refine ⟨c, o, now, k0, m + j, by omega, h2, by omega, h4, h5, h6, ?_⟩
  intro i hi hlt
  rcases Nat.lt_or_ge i k with h | h
  · exact h7 i hi h
  · have := hj (i - k) (by omega)
    rwa [show k + (i - k) = i by omega] at this

section
variable {tm : Nat → Int} {G : Int} {rate : Nat} {val : Nat → Option α}

theorem part_length (a n : Nat) : (part tm val a n).length = n := by simp [part]

theorem part_suffix {a n : Nat} {l r : List (TS α)} (h : part tm val a n = l ++ r) :
    l.length ≤ n ∧ r = part tm val (a + l.length) (n - l.length) := by
  have hl := congrArg List.length h
  rw [part_length, List.length_append] at hl
  refine ⟨by omega, ?_⟩
  have : r = (part tm val a n).drop l.length := by rw [h]; simp
  rw [this]
  unfold part
  rw [← List.map_drop, List.drop_range']
  simp

theorem part_prefix {a n : Nat} {l r : List (TS α)} (h : part tm val a n = l ++ r) :
    l = part tm val a l.length := by
  have hl := congrArg List.length h
  rw [part_length, List.length_append] at hl
  have e : part tm val a n =
      part tm val a l.length ++ part tm val (a + l.length) (n - l.length) := by
    unfold part
    rw [← List.map_append, List.range'_append_1, show l.length + (n - l.length) = n by omega]
  exact (List.append_inj (h.symm.trans e) (part_length _ _).symm).1

theorem part_get {a n : Nat} {l r : List (TS α)} {x : TS α} (h : part tm val a n = l ++ x :: r) :
    x = ⟨val (a + l.length), tm (a + l.length)⟩ := by
  obtain ⟨h1, h2⟩ := part_suffix h
  have := congrArg List.head? h2
  have hl := congrArg List.length h
  rw [part_length] at hl
  simp at hl
  obtain ⟨k, hk⟩ : ∃ k, n - l.length = k + 1 := ⟨n - l.length - 1, by omega⟩
  rw [hk] at this
  simpa [part, List.range'_succ] using this

/-- One call. -/
theorem run_trace (hG : 0 ≤ G) (hstep : ∀ i, tm (i + 1) ≤ tm i + G) {len : Nat} {nows : List Int} {L : Nat} {now : Int} {sy : Bool} {q : List (TS α)} {out : List (Option α)} {sy' : Bool}
    {r : List (TS α)} (h : Run rate L now sy q out sy' r) : ∀ (i n c o : Nat) (now0 : Int), q = part tm val i n →
    nows[c]? = some now0 → o + L = len → now ≤ now0 + samplesDuration rate o → now0 + samplesDuration rate o ≤ now + o →
    (sy = false → Since tm G rate len nows val (len * c + o) i) →
    ∃ (ids : List (Option Nat)) (i' n' : Nat), r = part tm val i' n' ∧ i ≤ i' ∧ i' + n' = i + n ∧ ids.length = L ∧
      out = ids.map (fun x => x.bind val) ∧
      (∀ p k, ids[p]? = some (some k) → i ≤ k ∧ k < i' ∧ (val k).isSome ∧ Since tm G rate len nows val (len * c + o + p) k) ∧
      (∀ p p' k k' : Nat, p < p' → ids[p]? = some (some k) → ids[p']? = some (some k') → k < k') ∧
      (sy' = false → Since tm G rate len nows val (len * c + len) i') ∧
      (sy = false → 0 < L → (val i).isSome → ids[0]? = some (some i)) ∧
      (∀ p k : Nat, ids[p]? = some (some k) → p + 1 < L → (val (k + 1)).isSome → ids[p + 1]? = some (some (k + 1))) ∧
      (∀ p k : Nat, ids[p]? = some (some k) → p + 1 = L → (val (k + 1)).isSome → sy' = false ∧ i' = k + 1) := by
  induction h with
  | done now sy q =>
    intro i n c o now0 hq hc ho h1 h2 h3
    refine ⟨[], i, n, hq, by omega, rfl, rfl, rfl, by simp, by simp, ?_, fun _ h => by omega, by simp, by simp⟩
    intro hs
    have e : len * c + o = len * c + len := by omega
    exact e ▸ h3 hs
  | @wait L now q nans r' s h0 h1 h2 h3 h4 =>
    intro i n c o now0 hq hc ho g1 g2 g3
    rw [hq] at h1
    obtain ⟨k1, k2⟩ := part_suffix h1
    refine ⟨List.replicate L none, _, _, k2, by omega, by omega, by simp, by simp, ?_, ?_, by simp, by simp, ?_, ?_⟩
    · intro p k hp
      rw [List.getElem?_replicate] at hp
      split at hp <;> simp at hp
    · intro p p' k k' _ hp
      rw [List.getElem?_replicate] at hp
      split at hp <;> simp at hp
    · intro p k hp
      rw [List.getElem?_replicate] at hp
      split at hp <;> simp at hp
    · intro p k hp
      rw [List.getElem?_replicate] at hp
      split at hp <;> simp at hp
  | @start L now q nans late r' tl s f out sy q' h0 h1 h2 h3 h4 h5 h6 h7 h8 ih =>
    intro i n c o now0 hq hc ho g1 g2 g3
    rw [hq, ← List.append_assoc] at h1
    obtain ⟨k1, k2⟩ := part_suffix h1
    have k3 := part_get h1
    have hd := dur_nonneg rate L
    have hd1 := dur_nonneg rate 1
    have hup : tm (i + (nans ++ late).length) ≤ now + G := by
      rcases List.eq_nil_or_concat late with e | ⟨l', x, e⟩
      · subst e
        simp only [List.nil_append, List.cons.injEq] at h5
        rw [← h5.1, k3] at h7
        simp only at h7
        omega
      · subst e
        have hx : x.time < now := h3 x (by simp)
        have h1' : part tm val i n = (nans ++ l') ++ x :: (s :: r') := by rw [h1]; simp
        have k4 := part_get h1'
        rw [k4] at hx
        simp only at hx
        have := hstep (i + (nans ++ l').length)
        rw [show i + (nans ++ (l'.concat x)).length = i + (nans ++ l').length + 1 by simp; omega]
        omega
    have hlow : now ≤ tm (i + (nans ++ late).length) := by rw [k3] at h4; exact h4
    obtain ⟨ids, i', n', a1, a2, a3, a4, a5, a6, a7, a8, a9, a10, a11⟩ := ih _ _ c o now0 k2 hc ho g1 g2
      (fun _ => ⟨c, o, now0, i + (nans ++ late).length, 0, by omega, by omega, by omega, hc, by omega, by omega, fun _ _ _ => by omega⟩)
    refine ⟨ids, i', n', a1, by omega, by omega, a4, a5, ?_, a7, a8, by simp, a10, a11⟩
    intro p k hp
    obtain ⟨b1, b2, b3⟩ := a6 p k hp
    exact ⟨by omega, b2, b3⟩
  | @play L now q vs r p h0 h1 h2 h3 =>
    intro i n c o now0 hq hc ho g1 g2 g3
    rw [hq] at h1
    obtain ⟨k1, k2⟩ := part_suffix h1
    have k3 := part_prefix h1
    have hl : p.length = L := by have := congrArg List.length h2; simp at this; omega
    rw [hl] at k1 k2 k3
    have hv : vs.map some = (List.range' i L).map val := by rw [← h2, k3]; simp [part]
    have hsome : ∀ x, x < L → (val (i + x)).isSome := by
      intro x hx
      have := congrArg (fun l => l[x]?) hv
      simp only [List.getElem?_map] at this
      rw [List.getElem?_range' (by omega), List.getElem?_eq_getElem (by omega)] at this
      simp at this
      rw [← this]; rfl
    have hget : ∀ x k, ((List.range' i L).map some)[x]? = some (some k) → x < L ∧ k = i + x := by
      intro x k hx
      rw [List.getElem?_map] at hx
      rcases Nat.lt_or_ge x L with hlt | hge
      · rw [List.getElem?_range' (by omega)] at hx
        simp at hx
        omega
      · rw [List.getElem?_eq_none (by simp; omega)] at hx; cases hx
    refine ⟨(List.range' i L).map some, i + L, n - L, k2, by omega, by omega, by simp, ?_, ?_, ?_, ?_, ?_, ?_, ?_⟩
    · rw [hv]; simp
    · intro x k hx
      obtain ⟨e1, e2⟩ := hget x k hx
      subst e2
      exact ⟨by omega, by omega, hsome x e1, since_add (g3 rfl) x (fun z hz => hsome z (by omega))⟩
    · intro x x' k k' hlt hx hx'
      have := hget x k hx
      have := hget x' k' hx'
      omega
    · intro _
      have e : len * c + o + L = len * c + len := by omega
      exact e ▸ since_add (g3 rfl) L hsome
    · intro _ hL _
      rw [List.getElem?_map, List.getElem?_range' hL]; simp
    · intro y k hy hlt _
      obtain ⟨-, e2⟩ := hget y k hy
      rw [List.getElem?_map, List.getElem?_range' hlt]
      simp; omega
    · intro y k hy hlt _
      obtain ⟨-, e2⟩ := hget y k hy
      exact ⟨rfl, by omega⟩
  | @stop L now q vs r p x out sy q' h0 h1 h2 h3 h4 h5 ih =>
    intro i n c o now0 hq hc ho g1 g2 g3
    rw [hq] at h1
    have hl : p.length = vs.length := by have := congrArg List.length h2; simpa using this
    have k3 := part_prefix h1
    have h1' : part tm val i n = (p ++ [x]) ++ r := by rw [h1]; simp
    obtain ⟨k1, k2⟩ := part_suffix h1'
    simp only [List.length_append, List.length_singleton, hl] at k1 k2
    rw [hl] at k3
    have hv : vs.map some = (List.range' i vs.length).map val := by rw [← h2, k3]; simp [part]
    have d1 := dur_add rate o vs.length
    have d2 := dur_add_le rate o vs.length
    have hd0 : vs.length = 0 → samplesDuration rate vs.length = 0 := by intro e; rw [e, dur_zero]
    have hdo : vs.length = 0 → samplesDuration rate (o + vs.length) = samplesDuration rate o := by intro e; rw [e, Nat.add_zero]
    obtain ⟨ids, i', n', a1, a2, a3, a4, a5, a6, a7, a8, a9, a10, a11⟩ := ih _ _ c (o + vs.length) now0 k2 hc (by omega) (by omega)
      (by rcases Nat.eq_zero_or_pos vs.length with e | e
          · have := hd0 e; have := hdo e; omega
          · omega) (by simp)
    have hsome : ∀ x, x < vs.length → (val (i + x)).isSome := by
      intro x hx
      have := congrArg (fun l => l[x]?) hv
      simp only [List.getElem?_map] at this
      rw [List.getElem?_range' (by omega), List.getElem?_eq_getElem (by omega)] at this
      simp at this
      rw [← this]; rfl
    have hget : ∀ y k, ((List.range' i vs.length).map some ++ ids)[y]? = some (some k) →
        (y < vs.length ∧ k = i + y) ∨ (vs.length ≤ y ∧ ids[y - vs.length]? = some (some k)) := by
      intro y k hy
      rcases Nat.lt_or_ge y vs.length with hlt | hge
      · rw [List.getElem?_append_left (by simpa using hlt), List.getElem?_map, List.getElem?_range' (by omega)] at hy
        simp at hy
        exact .inl ⟨hlt, by omega⟩
      · rw [List.getElem?_append_right (by simpa using hge)] at hy
        simp only [List.length_map, List.length_range'] at hy
        exact .inr ⟨hge, hy⟩
    refine ⟨(List.range' i vs.length).map some ++ ids, i', n', a1, by omega, by omega, by simp [a4]; omega, ?_, ?_, ?_, a8, ?_, ?_, ?_⟩
    · rw [List.map_append, ← a5, hv]; simp
    · intro y k hy
      rcases hget y k hy with ⟨e1, e2⟩ | ⟨e1, e2⟩
      · subst e2
        exact ⟨by omega, by omega, hsome y e1, since_add (g3 rfl) y (fun z hz => hsome z (by omega))⟩
      · obtain ⟨b1, b2, b3, b4⟩ := a6 _ k e2
        refine ⟨by omega, b2, b3, ?_⟩
        rw [show len * c + o + y = len * c + (o + vs.length) + (y - vs.length) by omega]
        exact b4
    · intro y y' k k' hlt hy hy'
      rcases hget y k hy with ⟨e1, e2⟩ | ⟨e1, e2⟩ <;> rcases hget y' k' hy' with ⟨f1, f2⟩ | ⟨f1, f2⟩
      · omega
      · have := (a6 _ k' f2).1; omega
      · omega
      · exact a7 _ _ k k' (by omega) e2 f2
    · intro _ _ hi
      rcases Nat.eq_zero_or_pos vs.length with e | e
      · have := part_get h1
        rw [hl, e, Nat.add_zero] at this
        rw [this] at h4
        simp only at h4
        rw [h4] at hi; cases hi
      · rw [List.getElem?_append_left (by simpa using e), List.getElem?_map, List.getElem?_range' e]; simp
    · intro y k hy hlt hk
      rcases hget y k hy with ⟨e1, e2⟩ | ⟨e1, e2⟩
      · rcases Nat.lt_or_ge (y + 1) vs.length with f | f
        · rw [List.getElem?_append_left (by simpa using f), List.getElem?_map, List.getElem?_range' f]
          simp; omega
        · have := part_get h1
          rw [hl, show i + vs.length = k + 1 by omega] at this
          rw [this] at h4
          simp only at h4
          rw [h4] at hk; cases hk
      · have := a10 _ k e2 (by omega) hk
        rw [List.getElem?_append_right (by simp; omega)]
        simp only [List.length_map, List.length_range']
        rw [show y + 1 - vs.length = y - vs.length + 1 by omega]
        exact this
    · intro y k hy hlt hk
      rcases hget y k hy with ⟨e1, e2⟩ | ⟨e1, e2⟩
      · omega
      · exact a11 _ k e2 (by omega) hk

/-- All calls. -/
theorem loop_trace (hG : 0 ≤ G) (hstep : ∀ i, tm (i + 1) ≤ tm i + G) {len : Nat} {nows : List Int} : ∀ (l : List Int) (c i n : Nat) (sy : Bool) (out : List (Option α)) (sy' : Bool)
    (rest : List (TS α)), nows.drop c = l → (sy = false → Since tm G rate len nows val (len * c) i) →
    playLoop rate len l sy (part tm val i n) = some (out, sy', rest) →
    ∃ ids : List (Option Nat), ids.length = len * l.length ∧ out = ids.map (fun x => x.bind val) ∧
      (∀ p k, ids[p]? = some (some k) → i ≤ k ∧ k < i + n ∧ (val k).isSome ∧ Since tm G rate len nows val (len * c + p) k) ∧
      (∀ p p' k k' : Nat, p < p' → ids[p]? = some (some k) → ids[p']? = some (some k') → k < k') ∧
      (sy = false → 0 < len * l.length → (val i).isSome → ids[0]? = some (some i)) ∧
      (∀ p k : Nat, ids[p]? = some (some k) → p + 1 < len * l.length → (val (k + 1)).isSome → ids[p + 1]? = some (some (k + 1))) := by
  intro l
  induction l with
  | nil =>
    intro c i n sy out sy' rest _ _ h
    simp only [playLoop, Option.some.injEq, Prod.mk.injEq] at h
    exact ⟨[], rfl, by simp [← h.1], by simp, by simp, by simp, by simp⟩
  | cons now l ih =>
    intro c i n sy out sy' rest hl hs h
    simp only [playLoop] at h
    split at h
    · cases h
    · rename_i o1 s1 q1 e1
      split at h
      · cases h
      · rename_i o2 s2 q2 e2
        simp only [Option.some.injEq, Prod.mk.injEq] at h
        obtain ⟨rfl, -, -⟩ := h
        have hc : nows[c]? = some now := by
          have := congrArg List.head? hl
          simpa using this
        have hl' : nows.drop (c + 1) = l := by
          rw [← List.drop_drop, hl]; rfl
        obtain ⟨ids, i', n', a1, a2, a3, a4, a5, a6, a7, a8, a9, a10, a11⟩ := run_trace (G := G) hG hstep (nows := nows) (stream_run e1) i n c 0 now rfl hc (by omega)
          (by rw [dur_zero]; omega) (by rw [dur_zero]; omega) hs
        subst a1
        obtain ⟨ids', b1, b2, b3, b4, b5, b6⟩ := ih (c + 1) i' n' s1 o2 s2 q2 hl' a8 e2
        have hget : ∀ y k, (ids ++ ids')[y]? = some (some k) →
            (y < len ∧ ids[y]? = some (some k)) ∨ (len ≤ y ∧ ids'[y - len]? = some (some k)) := by
          intro y k hy
          rcases Nat.lt_or_ge y len with hlt | hge
          · rw [List.getElem?_append_left (by omega)] at hy; exact .inl ⟨hlt, hy⟩
          · rw [List.getElem?_append_right (by omega), a4] at hy; exact .inr ⟨hge, hy⟩
        refine ⟨ids ++ ids', by simp [a4, b1, Nat.mul_add]; omega, by rw [List.map_append, a5, b2], ?_, ?_, ?_, ?_⟩
        · intro y k hy
          rcases hget y k hy with ⟨f1, f2⟩ | ⟨f1, f2⟩
          · obtain ⟨g1, g2, g3, g4⟩ := a6 y k f2
            exact ⟨by omega, by omega, g3, g4⟩
          · obtain ⟨g1, g2, g3, g4⟩ := b3 _ k f2
            refine ⟨by omega, by omega, g3, ?_⟩
            rw [show len * c + y = len * (c + 1) + (y - len) by rw [Nat.mul_add]; omega]
            exact g4
        · intro y y' k k' hlt hy hy'
          rcases hget y k hy with ⟨f1, f2⟩ | ⟨f1, f2⟩ <;> rcases hget y' k' hy' with ⟨g1, g2⟩ | ⟨g1, g2⟩
          · exact a7 _ _ _ _ hlt f2 g2
          · have := (a6 _ k f2).2.1; have := (b3 _ k' g2).1; omega
          · omega
          · exact b4 _ _ _ _ (by omega) f2 g2
        · intro hs hpos hi
          have hlen : 0 < len := Nat.pos_of_mul_pos_right hpos
          rw [List.getElem?_append_left (by omega)]
          exact a9 hs hlen hi
        · intro y k hy hlt hk
          rcases hget y k hy with ⟨f1, f2⟩ | ⟨f1, f2⟩
          · rcases Nat.lt_or_ge (y + 1) len with g | g
            · rw [List.getElem?_append_left (by omega)]
              exact a10 y k f2 g hk
            · obtain ⟨g1, g2⟩ := a11 y k f2 (by omega) hk
              rw [List.getElem?_append_right (by omega), a4, show y + 1 - len = 0 by omega, ← g2]
              rw [← g2] at hk
              refine b5 g1 ?_ hk
              rw [List.length_cons, Nat.mul_add] at hlt; omega
          · rw [List.getElem?_append_right (by omega), a4, show y + 1 - len = y - len + 1 by omega]
            exact b6 _ k f2 (by rw [List.length_cons, Nat.mul_add] at hlt; omega) hk

end


/-! ## One song -/

section
variable {tm : Nat → Int} {G : Int} {rate : Nat} {val : Nat → Option α}

/-- A call in playing mode, on a buffer without breaks. -/
theorem run_song {L : Nat} {now : Int} {a n : Nat} {out : List (Option α)} {sy' : Bool} {r : List (TS α)}
    (hv : ∀ i, a ≤ i → i < a + n → (val i).isSome) (h : Run rate L now false (part tm val a n) out sy' r) :
    L ≤ n ∧ sy' = false ∧ r = part tm val (a + L) (n - L) ∧ out.length = L ∧ ∀ j, j < L → out[j]? = some (val (a + j)) := by
  generalize hq : part tm val a n = q at h
  generalize hsy : false = sy at h
  cases h with
  | done => subst hsy; exact ⟨by omega, rfl, by simpa using hq.symm, rfl, by simp⟩
  | wait => cases hsy
  | start => cases hsy
  | @play _ _ _ vs r p h0 h1 h2 h3 =>
    rw [← hq] at h1
    obtain ⟨k1, k2⟩ := part_suffix h1
    have k3 := part_prefix h1
    have hl : p.length = L := by have := congrArg List.length h2; simp at this; omega
    rw [hl] at k1 k2 k3
    refine ⟨k1, rfl, k2, by simp [h3], ?_⟩
    intro j hj
    rw [← h2, k3, List.getElem?_map]
    simp [part, List.getElem?_range' hj]
  | @stop _ _ _ vs r p x out sy q' h0 h1 h2 h3 h4 h5 =>
    exfalso
    rw [← hq] at h1
    have k := part_get h1
    have hn := congrArg List.length h1
    rw [part_length] at hn
    simp at hn
    have := hv (a + p.length) (by omega) (by omega)
    rw [k] at h4
    simp only at h4
    rw [h4] at this
    cases this

/-- Any number of calls in playing mode, on a buffer without breaks. -/
theorem loop_song {len : Nat} (hl : 0 < len) : ∀ (nows : List Int) (a n : Nat) (out : List (Option α)) (sy' : Bool) (rest : List (TS α)),
    (∀ i, a ≤ i → i < a + n → (val i).isSome) → playLoop rate len nows false (part tm val a n) = some (out, sy', rest) →
    len * nows.length ≤ n ∧ rest = part tm val (a + len * nows.length) (n - len * nows.length) ∧
    ∀ m, m < len * nows.length → m < n ∧ out[m]? = some (val (a + m)) := by
  intro nows
  induction nows with
  | nil =>
    intro a n out sy' rest _ h
    simp only [playLoop, Option.some.injEq, Prod.mk.injEq] at h
    exact ⟨by simp, by simpa using h.2.2.symm, by simp⟩
  | cons now nows ih =>
    intro a n out sy' rest hv h
    simp only [playLoop] at h
    split at h
    · cases h
    · rename_i o1 s1 q1 e1
      split at h
      · cases h
      · rename_i o2 s2 q2 e2
        simp only [Option.some.injEq, Prod.mk.injEq] at h
        obtain ⟨rfl, -, rfl⟩ := h
        obtain ⟨r1, rfl, rfl, r4, r5⟩ := run_song hv (stream_run e1)
        obtain ⟨i1, i2, i3⟩ := ih (a + len) (n - len) _ _ _ (fun i g1 g2 => hv i (by omega) (by omega)) e2
        have hmul : len * (now :: nows).length = len + len * nows.length := by rw [List.length_cons, Nat.mul_add]; omega
        refine ⟨by omega, by rw [i2, hmul]; congr 1 <;> omega, ?_⟩
        intro m hm
        rcases Nat.lt_or_ge m len with hlt | hge
        · exact ⟨by omega, by rw [List.getElem?_append_left (by omega)]; exact r5 m hlt⟩
        · have := i3 (m - len) (by omega)
          refine ⟨by omega, ?_⟩
          rw [List.getElem?_append_right (by omega), r4, this.2, show a + len + (m - len) = a + m by omega]

/-- A buffer without breaks: silence, and from some call on sample after sample. -/
theorem song (hG : 0 ≤ G) (hstep : ∀ i, tm (i + 1) ≤ tm i + G) {len : Nat} (hl : 0 < len) : ∀ (nows : List Int) (a n : Nat)
    (out : List (Option α)) (sy' : Bool) (rest : List (TS α)), (∀ i, a ≤ i → i < a + n → (val i).isSome) →
    playLoop rate len nows true (part tm val a n) = some (out, sy', rest) →
    (out = List.replicate (len * nows.length) none) ∨
    ∃ c k0 now, nows[c]? = some now ∧ a ≤ k0 ∧ k0 < a + n ∧ now ≤ tm k0 ∧ tm k0 ≤ now + G ∧ (∀ j, j < len * c → out[j]? = some none) ∧
      (rest = part tm val (k0 + len * (nows.length - c)) (a + n - (k0 + len * (nows.length - c))) ∧ k0 + len * (nows.length - c) ≤ a + n) ∧
      ∀ m, m < len * (nows.length - c) → k0 + m < a + n ∧ out[len * c + m]? = some (val (k0 + m)) := by
  intro nows
  induction nows with
  | nil =>
    intro a n out sy' rest _ h
    simp only [playLoop, Option.some.injEq, Prod.mk.injEq] at h
    exact .inl (by simp [← h.1])
  | cons now nows ih =>
    intro a n out sy' rest hv h
    have hfull := h
    simp only [playLoop] at h
    split at h
    · cases h
    · rename_i o1 s1 q1 e1
      split at h
      · cases h
      · rename_i o2 s2 q2 e2
        simp only [Option.some.injEq, Prod.mk.injEq] at h
        obtain ⟨rfl, -, rfl⟩ := h
        have hr := stream_run e1
        generalize hq : part tm val a n = q at hr
        generalize hsy : true = sy at hr
        cases hr with
        | done => omega
        | play => cases hsy
        | stop => cases hsy
        | @wait _ _ _ nans r' s h0 h1 h2 h3 h4 =>
          rw [← hq] at h1
          obtain ⟨k1, k2⟩ := part_suffix h1
          rw [k2] at e2
          rcases ih _ _ _ _ _ (fun i g1 g2 => hv i (by omega) (by omega)) e2 with g | ⟨c, k0, nw, c1, c2, c3, c4, c5, c6, cr, c7⟩
          · left
            rw [g, List.replicate_append_replicate]
            congr 1
            simp [Nat.mul_add]; omega
          · right
            have hlen : (List.replicate len (none : Option α)).length = len := by simp
            refine ⟨c + 1, k0, nw, by simpa using c1, by omega, by omega, c4, c5, ?_, ?_, ?_⟩
            · intro j hj
              rcases Nat.lt_or_ge j len with g | g
              · rw [List.getElem?_append_left (by omega), List.getElem?_replicate, if_pos g]
              · rw [List.getElem?_append_right (by omega), hlen]
                exact c6 _ (by rw [Nat.mul_add] at hj; omega)
            · rw [show (now :: nows).length - (c + 1) = nows.length - c by simp]
              refine ⟨?_, by omega⟩
              rw [cr.1]; congr 1; omega
            · intro m hm
              obtain ⟨d1, d2⟩ := c7 m (by simpa using hm)
              refine ⟨by omega, ?_⟩
              rw [List.getElem?_append_right (by rw [Nat.mul_add]; omega), hlen, show len * (c + 1) + m - len = len * c + m by rw [Nat.mul_add]; omega]
              exact d2
        | @start _ _ _ nans late r' tl s f _ _ _ h0 h1 h2 h3 h4 h5 h6 h7 h8 =>
          right
          rw [← hq, ← List.append_assoc] at h1
          obtain ⟨k1, k2⟩ := part_suffix h1
          have k3 := part_get h1
          have hd := dur_nonneg rate len
          have hup : tm (a + (nans ++ late).length) ≤ now + G := by
            rcases List.eq_nil_or_concat late with e | ⟨l', x, e⟩
            · subst e
              simp only [List.nil_append, List.cons.injEq] at h5
              rw [← h5.1, k3] at h7
              simp only at h7
              omega
            · subst e
              have hx : x.time < now := h3 x (by simp)
              have h1' : part tm val a n = (nans ++ l') ++ x :: (s :: r') := by rw [h1]; simp
              have k4 := part_get h1'
              rw [k4] at hx
              simp only at hx
              have := hstep (a + (nans ++ l').length)
              rw [show a + (nans ++ (l'.concat x)).length = a + (nans ++ l').length + 1 by simp; omega]
              omega
          have hlow : now ≤ tm (a + (nans ++ late).length) := by rw [k3] at h4; exact h4
          rw [k2] at h8
          have hnl := congrArg List.length h1
          rw [part_length, List.length_append, List.length_cons] at hnl
          have hv' : ∀ i, a + (nans ++ late).length ≤ i → i < a + (nans ++ late).length + (n - (nans ++ late).length) → (val i).isSome :=
            fun i g1 g2 => hv i (by omega) (by omega)
          obtain ⟨r1, rfl, rfl, r4, r5⟩ := run_song hv' h8
          obtain ⟨hl0, hlr, hl2⟩ := loop_song hl nows _ _ _ _ _ (fun i g1 g2 => hv' i (by omega) (by omega)) e2
          refine ⟨0, a + (nans ++ late).length, now, rfl, by omega, by omega, hlow, hup, by simp, ⟨?_, ?_⟩, ?_⟩
          · rw [hlr, Nat.sub_zero, List.length_cons, Nat.mul_add]; congr 1 <;> omega
          · rw [Nat.sub_zero, List.length_cons, Nat.mul_add]; omega
          intro m hm
          rw [Nat.mul_zero, Nat.zero_add]
          rcases Nat.lt_or_ge m len with hlt | hge
          · exact ⟨by omega, by rw [List.getElem?_append_left (by omega)]; exact r5 m hlt⟩
          · obtain ⟨g1, g2⟩ := hl2 (m - len) (by rw [Nat.sub_zero, List.length_cons, Nat.mul_add] at hm; omega)
            refine ⟨by omega, ?_⟩
            rw [List.getElem?_append_right (by omega), r4, g2]
            congr 2; omega
end

/-! ## The rates -/

/-- Specification: the time a player at the rate `own` gives sample `i` of a stream at the rate `rate`, in chunks of `size` that are sent
at the times of the schedule of `rate`. -/
def stamp (start : Int) (size rate own i : Nat) : Int :=
  start + ((i / size : Nat) : Int) * chunkTime size rate + samplesDuration own (i % size)

/-- Specification: the longest time from one sample to the next, by these times: within a chunk, or from its last sample to the next chunk. -/
def gap (size rate own : Nat) : Int := max (samplesDuration own 1 + 1) (chunkTime size rate - samplesDuration own (size - 1))

/-- Specification: how much longer `m` samples last at the rate `own` than at the rate `rate`. -/
def drift (rate own m : Nat) : Int := samplesDuration own m - samplesDuration rate m

theorem gap_nonneg (size rate own : Nat) : 0 ≤ gap size rate own := by
  have := dur_nonneg own 1
  unfold gap; omega

theorem stamp_step (start : Int) (size rate own i : Nat) : stamp start size rate own (i + 1) ≤ stamp start size rate own i + gap size rate own := by
  have hg1 : samplesDuration own 1 + 1 ≤ gap size rate own := by unfold gap; omega
  have hg2 : chunkTime size rate - samplesDuration own (size - 1) ≤ gap size rate own := by unfold gap; omega
  rcases Nat.eq_zero_or_pos size with h | h
  · subst h
    have := dur_add_le own i 1
    simp only [stamp, Nat.div_zero, Nat.mod_zero]
    omega
  · have e := Nat.div_add_mod i size
    have hlt := Nat.mod_lt i h
    rcases Nat.lt_or_ge (i % size + 1) size with hin | hout
    · have e1 : (i + 1) / size = i / size := by
        rw [show i + 1 = (i % size + 1) + size * (i / size) by omega, Nat.add_mul_div_left _ _ h, Nat.div_eq_of_lt hin]; omega
      have e2 : (i + 1) % size = i % size + 1 := by
        rw [show i + 1 = (i % size + 1) + size * (i / size) by omega, Nat.add_mul_mod_self_left, Nat.mod_eq_of_lt hin]
      have := dur_add_le own (i % size) 1
      unfold stamp; rw [e1, e2]; omega
    · have e3 : i + 1 = size * (i / size + 1) := by rw [Nat.mul_add]; omega
      have e1 : (i + 1) / size = i / size + 1 := by rw [e3, Nat.mul_div_cancel_left _ h]
      have e2 : (i + 1) % size = 0 := by rw [e3, Nat.mul_mod_right]
      have e4 : i % size = size - 1 := by omega
      unfold stamp; rw [e1, e2, e4, dur_zero, Int.natCast_add, Int.add_mul]
      omega

theorem since_clock {rate own len size : Nat} {start J : Int} {nows : List Int} {val : Nat → Option α} {p k : Nat} {y : Int}
    (hs : Steady own len J nows) (h : Since (stamp start size rate own) (gap size rate own) own len nows val p k)
    (hy : nows[p / len]? = some y) :
    ∃ m, m ≤ p ∧ m ≤ k ∧ (∀ i, k - m ≤ i → i < k → (val i).isSome) ∧
      y + samplesDuration own (p % len) ≤
        MS.InSync.due start size rate k + drift rate own m + drift rate own ((k - m) % size) + J + len + (p / size : Nat) + 2 ∧
      MS.InSync.due start size rate k + drift rate own m + drift rate own ((k - m) % size) ≤
        y + samplesDuration own (p % len) + J + gap size rate own + 3 := by
  obtain ⟨c, o, now, k0, m, h1, h2, h3, h4, h5, h6, h7⟩ := h
  have hl : 0 < len := by omega
  have e := Nat.div_add_mod p len
  have hc : c ≤ p / len := by
    rw [Nat.le_div_iff_mul_le hl, Nat.mul_comm]; omega
  obtain ⟨g1, g2⟩ := hs c (p / len) now y hc h4 hy
  have e2 : len * (p / len - c) + p % len = o + m := by
    rw [Nat.mul_sub]
    have : len * c ≤ len * (p / len) := Nat.mul_le_mul_left _ hc
    omega
  have d1 := dur_add own (len * (p / len - c)) (p % len)
  have d2 := dur_add_le own (len * (p / len - c)) (p % len)
  rw [e2] at d1 d2
  have d3 := dur_add own o m
  have d4 := dur_add_le own o m
  obtain ⟨b1, b2⟩ := due_diff start size rate k0 m
  rw [← h3] at b1 b2
  have b3 := MS.OnTime.borders size k0 m
  rw [← h3] at b3
  have b4 : m / size ≤ p / size := Nat.div_le_div_right (by omega)
  have hk0 : k - m = k0 := by omega
  have hst : stamp start size rate own k0 = MS.InSync.due start size rate k0 + drift rate own (k0 % size) := by
    unfold stamp MS.InSync.due drift; omega
  refine ⟨m, by omega, by omega, by rw [hk0]; exact h7, ?_, ?_⟩
  · rw [hk0]
    have : drift rate own m = samplesDuration own m - samplesDuration rate m := rfl
    omega
  · rw [hk0]
    have : drift rate own m = samplesDuration own m - samplesDuration rate m := rfl
    omega

/-- C135, what it still does right: at any rate of its own the player writes samples of the stream or silence, in the order of the stream,
none twice. -/
theorem C135_order (rate own len size : Nat) (start : Int) (val : Nat → Option α) (a n : Nat) (nows : List Int)
    (out : List (Option α)) (sy' : Bool) (rest : List (TS α))
    (h : playLoop own len nows true (part (stamp start size rate own) val a n) = some (out, sy', rest)) :
    ∃ ids : List (Option Nat), ids.length = len * nows.length ∧ out = ids.map (fun x => x.bind val) ∧
      (∀ p p' k k' : Nat, p < p' → ids[p]? = some (some k) → ids[p']? = some (some k') → k < k') ∧
      (∀ p k : Nat, ids[p]? = some (some k) → a ≤ k ∧ k < a + n ∧ (val k).isSome) ∧
      ∀ J : Int, Steady own len J nows → ∀ (p k : Nat) (y : Int), ids[p]? = some (some k) → nows[p / len]? = some y →
        ∃ m, m ≤ p ∧ m ≤ k ∧ (∀ i, k - m ≤ i → i < k → (val i).isSome) ∧
          y + samplesDuration own (p % len) ≤
            MS.InSync.due start size rate k + drift rate own m + drift rate own ((k - m) % size) + J + len + (p / size : Nat) + 2 ∧
          MS.InSync.due start size rate k + drift rate own m + drift rate own ((k - m) % size) ≤
            y + samplesDuration own (p % len) + J + gap size rate own + 3 := by
  obtain ⟨ids, h1, h2, h3, h4, -, -⟩ := loop_trace (G := gap size rate own) (gap_nonneg _ _ _) (stamp_step start size rate own) (nows := nows)
    nows 0 a n true out sy' rest (by simp) (by simp) h
  refine ⟨ids, h1, h2, h4, fun (p k : Nat) hp => ⟨(h3 p k hp).1, (h3 p k hp).2.1, (h3 p k hp).2.2.1⟩, ?_⟩
  intro J hs p k y hp hy
  have := (h3 p k hp).2.2.2
  rw [Nat.mul_zero, Nat.zero_add] at this
  exact since_clock hs this hy

/-- C135, a song. The buffer holds samples without a break. The player is silent, and from some call on it plays sample after sample for as
long as its calls return: after `m` samples it is `drift m` late (early, if this is negative), that is the time by which `m` samples last
longer at its rate than at the server's, up to its error at the beginning. It does not catch up. -/
theorem C135_song (rate own len size : Nat) (hl : 0 < len) (start J : Int) (val : Nat → Option α) (a n : Nat) (nows : List Int)
    (hv : ∀ i, a ≤ i → i < a + n → (val i).isSome) (hs : Steady own len J nows)
    (out : List (Option α)) (sy' : Bool) (rest : List (TS α))
    (h : playLoop own len nows true (part (stamp start size rate own) val a n) = some (out, sy', rest)) :
    (out = List.replicate (len * nows.length) none) ∨
    ∃ c k0, c < nows.length ∧ a ≤ k0 ∧ (∀ j, j < len * c → out[j]? = some none) ∧
      ∀ m, m < len * (nows.length - c) → k0 + m < a + n ∧ out[len * c + m]? = some (val (k0 + m)) ∧
        ∀ y, nows[c + m / len]? = some y →
          y + samplesDuration own (m % len) ≤
            MS.InSync.due start size rate (k0 + m) + drift rate own m + drift rate own (k0 % size) + J + (m / size : Nat) + 2 ∧
          MS.InSync.due start size rate (k0 + m) + drift rate own m + drift rate own (k0 % size) ≤
            y + samplesDuration own (m % len) + J + gap size rate own + 3 := by
  rcases song (G := gap size rate own) (gap_nonneg _ _ _) (stamp_step start size rate own) hl nows a n out sy' rest hv h with
    g | ⟨c, k0, now, c1, c2, c3, c4, c5, c6, -, c7⟩
  · exact .inl g
  right
  have hc : c < nows.length := (List.getElem?_eq_some_iff.1 c1).1
  refine ⟨c, k0, hc, c2, c6, ?_⟩
  intro m hm
  obtain ⟨d1, d2⟩ := c7 m hm
  refine ⟨d1, d2, ?_⟩
  intro y hy
  obtain ⟨g1, g2⟩ := hs c (c + m / len) now y (Nat.le_add_right _ _) c1 hy
  rw [Nat.add_sub_cancel_left] at g1 g2
  have e := Nat.div_add_mod m len
  have f1 := dur_add own (len * (m / len)) (m % len)
  have f2 := dur_add_le own (len * (m / len)) (m % len)
  rw [e] at f1 f2
  obtain ⟨b1, b2⟩ := due_diff start size rate k0 m
  have b3 := MS.OnTime.borders size k0 m
  have hst : stamp start size rate own k0 = MS.InSync.due start size rate k0 + drift rate own (k0 % size) := by
    unfold stamp MS.InSync.due drift; omega
  have hd : drift rate own m = samplesDuration own m - samplesDuration rate m := rfl
  omega

/-- C135, how large the drift is: for each sample `1/own - 1/rate` seconds, up to a nanosecond altogether. -/
theorem C135_drift (rate own m : Nat) (hr : 0 < rate) (ho : 0 < own) :
    (rate : Int) * own * drift rate own m < 1000000000 * m * ((rate : Int) - own) + rate * own ∧
    1000000000 * m * ((rate : Int) - own) - rate * own < (rate : Int) * own * drift rate own m := by
  have key : ∀ r : Nat, 0 < r → (r : Int) * samplesDuration r m ≤ 1000000000 * m ∧ 1000000000 * (m : Int) < r * samplesDuration r m + r := by
    intro r h
    have e := Int.mul_tdiv_add_tmod (1000000000 * (m : Int)) r
    have h1 := Int.tmod_lt_of_pos (1000000000 * (m : Int)) (show (0 : Int) < r by omega)
    have h2 := Int.tmod_nonneg (r : Int) (show 0 ≤ 1000000000 * (m : Int) by omega)
    unfold samplesDuration
    omega
  obtain ⟨a1, a2⟩ := key rate hr
  obtain ⟨b1, b2⟩ := key own ho
  have a1' := Int.mul_le_mul_of_nonneg_left a1 (show (0 : Int) ≤ own by omega)
  have a2' := Int.mul_lt_mul_of_pos_left a2 (show (0 : Int) < own by omega)
  have b1' := Int.mul_le_mul_of_nonneg_left b1 (show (0 : Int) ≤ rate by omega)
  have b2' := Int.mul_lt_mul_of_pos_left b2 (show (0 : Int) < rate by omega)
  unfold drift
  constructor <;> grind

open MS.StreamLoop (Cfg)
open MS.PlaylistRun MS.PauseHeard
open MS.Pipeline (received heard)
open MS.OnTime (heardAt message_values)

variable {β : Type}

/-- The buffer of a player. -/
theorem adds_part {cap size own : Nat} {s : St (Option β)} (h : Inv none cap s) (hz : Sized size s.chans) (start delay : Int) (rate : Nat)
    (racts : List (MS.ReadChunks.Act (β × Option β))) (r : MS.ReadChunks.St (β × Option β))
    (hr : MS.ReadChunks.run (MS.ReadChunks.init own) racts = some r) (a n : Nat) (han : a + n ≤ s.chans.chunks.length)
    (harr : MS.ReadChunks.arrivals racts =
      (((messages start delay size rate s.chans.chunks).map (fun m => received m.1)).drop a).take n) :
    r.adds <+: part (stamp (start + delay) size rate own) (heardAt s) (a * size) (n * size) := by
  have hpre := MS.ReadChunks.C20_adds_prefix own racts r hr
  have hlen : (messages start delay size rate s.chans.chunks).length = s.chans.chunks.length := MS.StreamMusic.messagesFrom_length _ _ _ _ _
  have key : ∀ m, m < s.chans.chunks.length → ∃ c, ((messages start delay size rate s.chans.chunks).map (fun m => received m.1))[m]? = some c ∧
      MS.ReadChunks.stamped own c = (List.range' (m * size) size).map (fun j => ⟨heardAt s j, stamp (start + delay) size rate own j⟩) := by
    intro m hm
    obtain ⟨q, i, g1, g2, g3, g4⟩ := message_values h hz (start := start) (delay := delay) (rate := rate) hm
    refine ⟨received q, by rw [List.getElem?_map, g1]; rfl, ?_⟩
    have hh : size ≤ q.high.length := by
      refine Classical.byContradiction fun hlt => ?_
      obtain ⟨x, -, -, y⟩ := g4 q.high.length (by omega)
      simp at y
    have hcl : (received q).samples.length = size := by
      simp only [received, MS.Pipeline.combine_zip, List.length_map, List.length_zip]; omega
    apply List.ext_getElem?
    intro i
    rcases Nat.lt_or_ge i size with hi | hi
    · obtain ⟨x, y1, y2, y3⟩ := g4 i hi
      have e1 : (m * size + i) / size = m := by
        rw [Nat.add_comm, Nat.add_mul_div_right _ _ (by omega), Nat.div_eq_of_lt hi]; omega
      have e2 : (m * size + i) % size = i := by
        rw [Nat.add_comm, Nat.add_mul_mod_self_right, Nat.mod_eq_of_lt hi]
      have hz : (q.low.zip q.high)[i]? = some ((value none x).1, (value none x).2) := by
        rw [List.getElem?_zip_eq_some]; exact ⟨y2, y3⟩
      rw [List.getElem?_map, List.getElem?_range' hi]
      simp only [Option.map_some, Nat.one_mul, heardAt, y1, Option.bind_some, stamp, e1, e2]
      simp only [MS.ReadChunks.stamped, List.getElem?_zipWith, hcl, List.getElem?_range hi, received, MS.Pipeline.combine_zip,
        List.getElem?_map, hz, Option.map_some]
      rw [MS.ReadChunks.dur_spec, g2, List.getElem?_range (by simp; omega)]
    · rw [List.getElem?_eq_none (by simp [MS.ReadChunks.stamped, hcl]; omega), List.getElem?_eq_none (by simp; omega)]
  refine hpre.trans ?_
  rw [harr]
  have e : ((((messages start delay size rate s.chans.chunks).map (fun m => received m.1)).drop a).take n).flatMap (MS.ReadChunks.stamped own) =
      (List.range' a n).flatMap (fun m => (List.range' (m * size) size).map (fun j => ⟨heardAt s j, stamp (start + delay) size rate own j⟩)) := by
    generalize hM : (messages start delay size rate s.chans.chunks).map (fun m => received m.1) = M at key
    have hMl : M.length = s.chans.chunks.length := by rw [← hM, List.length_map, hlen]
    clear harr hM
    induction n generalizing a with
    | zero => simp
    | succ n ih =>
      obtain ⟨c, c1, c2⟩ := key a (by omega)
      rw [List.range'_succ, List.flatMap_cons, ← ih (a + 1) (by omega)]
      have hlt : a < M.length := by omega
      rw [List.drop_eq_getElem_cons hlt, List.take_succ_cons, List.flatMap_cons]
      rw [List.getElem?_eq_getElem hlt] at c1
      injection c1 with c1
      rw [c1, c2]
  rw [e, MS.Pipeline.flatMap_windows]
  exact List.prefix_refl _


/-- Specification: what the player has done: it has handled the audio messages from the `a`-th on in order, `n` of them, in any interleaving
with its reader, at its own rate, and has written `out` in calls for `len` samples at the times `nows` of its clock. -/
structure Player (start delay : Int) (size rate own : Nat) (chunks : List (Nat × List (Option β) × List (Option β))) (a n len : Nat)
    (nows : List Int) (out : List (Option (β × Option β))) : Prop where
  gets : ∃ racts r buffer, MS.ReadChunks.run (MS.ReadChunks.init own) racts = some r ∧ a + n ≤ chunks.length ∧
    MS.ReadChunks.arrivals racts = (((messages start delay size rate chunks).map (fun m => received m.1)).drop a).take n ∧
    buffer <+: r.adds ∧ ∃ sy rest, playLoop own len nows true buffer = some (out, sy, rest)

/-- The buffer of such a player is a part of the server's stream, with its own times. -/
theorem player_buffer {cap size own : Nat} {s : St (Option β)} (h : Inv none cap s) (hz : Sized size s.chans) {start delay : Int} {rate a n len : Nat}
    {nows : List Int} {out : List (Option (β × Option β))} (hp : Player start delay size rate own s.chans.chunks a n len nows out) :
    ∃ n' sy rest, n' ≤ n * size ∧
      playLoop own len nows true (part (stamp (start + delay) size rate own) (heardAt s) (a * size) n') = some (out, sy, rest) := by
  obtain ⟨racts, r, buffer, p1, p2, p3, p4, sy, rest, p5⟩ := hp.gets
  have hpre := p4.trans (adds_part h hz start delay rate racts r p1 a n p2 p3)
  obtain ⟨t, ht⟩ := hpre
  have hb := part_prefix ht.symm
  have hbl : buffer.length ≤ n * size := by
    have := congrArg List.length ht
    rw [part_length, List.length_append] at this
    omega
  rw [hb] at p5
  exact ⟨_, sy, rest, hbl, p5⟩

/-- C135, from the server to the device. The server has streamed any playlist at the rate `rate`, a player at the rate `own` has handled some of
its messages. It plays samples of the server's stream, in order, none twice, each late by the drift since its last synchronisation, and there
was no silent sample since. -/
theorem C135_player (c : Cfg (Option β × Option β)) (cap : Nat) (songs : List String) (as : List Act) (s : St (Option β))
    (start delay J : Int) (size rate own len a n : Nat) (h : run none c (init cap songs) as = some s) (hz : Asks size as)
    (nows : List Int) (hs : Steady own len J nows) (out : List (Option (β × Option β)))
    (hplayer : Player start delay size rate own s.chans.chunks a n len nows out) :
    ∃ ids : List (Option Nat), ids.length = len * nows.length ∧ out = ids.map (fun x => x.bind (heardAt s)) ∧
      (∀ p p' k k' : Nat, p < p' → ids[p]? = some (some k) → ids[p']? = some (some k') → k < k') ∧
      ∀ (p k : Nat) (y : Int), ids[p]? = some (some k) → nows[p / len]? = some y →
        a * size ≤ k ∧ k < (a + n) * size ∧ (heardAt s k).isSome ∧
        ∃ m, m ≤ p ∧ m ≤ k ∧ (∀ i, k - m ≤ i → i < k → (heardAt s i).isSome) ∧
          y + samplesDuration own (p % len) ≤ MS.InSync.due (start + delay) size rate k +
            drift rate own m + drift rate own ((k - m) % size) + J + len + (p / size : Nat) + 2 ∧
          MS.InSync.due (start + delay) size rate k + drift rate own m + drift rate own ((k - m) % size) ≤
            y + samplesDuration own (p % len) + J + gap size rate own + 3 := by
  have h1 := (run_sim as (inv_init none cap songs) h).1
  have z1 := sized_run as (s := init cap songs) ⟨by simp [init, Fill.init], by simp [init, Fill.init]⟩ hz h
  obtain ⟨n', sy, rest, hn, hplay⟩ := player_buffer h1 z1 hplayer
  obtain ⟨ids, i1, i2, i3, i4, i5⟩ := C135_order rate own len size (start + delay) (heardAt s) _ _ nows out sy rest hplay
  refine ⟨ids, i1, i2, i3, ?_⟩
  intro p k y hp hy
  obtain ⟨j1, j2, j3⟩ := i4 p k hp
  exact ⟨j1, by rw [Nat.add_mul]; omega, j3, i5 J hs p k y hp hy⟩

/-- The server sends four samples a second, in chunks of four; the player takes two a second. Called at seconds 1, 2, 3, 4, it begins with
sample 2, half a second late, and is one and a half, two, ... seconds late with samples 6, 8. -/
theorem ex_slow : (playLoop 2 2 ((List.range 4).map (fun c => 1000000000 + samplesDuration 2 (2 * c))) true
    (part (stamp 0 4 4 2) some 0 16)).map (fun x => x.1) =
    some [some 2, some 3, some 4, some 5, some 6, some 7, some 8, some 9] ∧
    MS.InSync.due 0 4 4 2 = 500000000 ∧ MS.InSync.due 0 4 4 8 = 2000000000 ∧ drift 4 2 6 = 1500000000 := by
  refine ⟨?_, by decide +kernel, by decide +kernel, by decide +kernel⟩
  simp only [Option.map]
  decide +kernel

/-- A break (samples 6 and 7) lets it synchronise again: it skips to what is due. -/
theorem ex_break : (playLoop 2 2 ((List.range 6).map (fun c => 1000000000 + samplesDuration 2 (2 * c))) true
    (part (stamp 0 4 4 2) (fun i => if i = 6 ∨ i = 7 then none else some i) 0 32)).map (fun x => x.1) =
    some [some 2, some 3, some 4, some 5, some 10, some 11, some 12, some 13, some 14, some 15, some 16, some 17] := by
  simp only [Option.map]
  decide +kernel

set_option synthInstance.maxSize 2000 in
/-- The server of `MS.OnTime.ex_server` sends a sample a second; a player that takes two a second handles both chunks and plays two of them. -/
theorem ex_player : Player 0 0 2 1 2 MS.OnTime.exChunks 0 2 1 [500000000, 1000000000] [some (3, some 4), some (5, some 6)] := by
  have h : (playLoop 2 1 [500000000, 1000000000] true
      (part (stamp 0 2 1 2) (fun i => if i < 4 then some (2 * i + 1, some (2 * i + 2)) else none) 0 4)) =
      (some ([some (3, some 4), some (5, some 6)], false, [⟨some (7, some 8), 2500000000⟩]) :
        Option (List (Option (Nat × Option Nat)) × Bool × List (TS (Nat × Option Nat)))) := by
    decide +kernel
  refine ⟨⟨[.queue ⟨0, [some (1, some 2), some (3, some 4)]⟩, .queue ⟨2000000000, [some (5, some 6), some (7, some 8)]⟩] ++
      List.replicate 12 .reader, _, part (stamp 0 2 1 2) (fun i => if i < 4 then some (2 * i + 1, some (2 * i + 2)) else none) 0 4, rfl,
      by decide, rfl, ⟨[], rfl⟩, false, [⟨some (7, some 8), 2500000000⟩], h⟩⟩

end MS.WrongRate
