import Verif.Model.Ticker
import Verif.Props.StreamMusic
/-!
# Property C85: the lead of the stream
-/
namespace MS.Ticker

theorem ticks_le {P t0 t : Int} (hP : 0 < P) : t0 + ticks P t0 t * P ≤ t ∧ t < t0 + (ticks P t0 t + 1) * P := by
  unfold ticks
  have h1 := Int.mul_ediv_add_emod (t - t0) P
  have h2 := Int.emod_nonneg (t - t0) (show P ≠ 0 by omega)
  have h3 := Int.emod_lt_of_pos (t - t0) hP
  rw [Int.mul_comm] at h1
  rw [Int.add_mul, Int.one_mul]
  omega

theorem ticks_eq {P t0 t k : Int} (hP : 0 < P) (h1 : t0 + k * P ≤ t) (h2 : t < t0 + (k + 1) * P) : ticks P t0 t = k := by
  obtain ⟨h3, h4⟩ := ticks_le (t0 := t0) (t := t) hP
  have a : k < ticks P t0 t + 1 := Int.lt_of_mul_lt_mul_right (a := P) (by omega) (by omega)
  have b : ticks P t0 t < k + 1 := Int.lt_of_mul_lt_mul_right (a := P) (by omega) (by omega)
  omega

theorem ticks_mono {P t0 a b : Int} (hP : 0 < P) (h : a ≤ b) : ticks P t0 a ≤ ticks P t0 b :=
  Int.ediv_le_ediv hP (by omega)

theorem le_of_ticks {P t0 t k : Int} (hP : 0 < P) (h : k ≤ ticks P t0 t) : t0 + k * P ≤ t := by
  have := (ticks_le (t0 := t0) (t := t) hP).1
  have := Int.mul_le_mul_of_nonneg_right h (show 0 ≤ P by omega)
  omega

theorem recv_ge {P t0 r e : Int} (hP : 0 < P) : e ≤ recv P t0 r e := by
  unfold recv
  split
  · omega
  · have := (ticks_le (t0 := t0) (t := e) hP).2; omega

/-- Every iteration gets a new tick. -/
theorem ticks_recv {P t0 r e : Int} (hP : 0 < P) (hre : r ≤ e) :
    ticks P t0 r + 1 ≤ ticks P t0 (recv P t0 r e) := by
  unfold recv
  split
  · omega
  · rename_i h
    have : ticks P t0 (t0 + (ticks P t0 e + 1) * P) = ticks P t0 e + 1 :=
      ticks_eq hP (Int.le_refl _) (by rw [Int.add_mul (ticks P t0 e + 1)]; omega)
    rw [this]
    have := ticks_mono (t0 := t0) hP hre
    omega

theorem iterations_spec {P t0 : Int} (hP : 0 < P) : ∀ (ds : List Int) (r e : Int), r ≤ e → (∀ d ∈ ds, 0 ≤ d) →
    ∀ (n : Nat) x, (iterations P t0 r e ds)[n]? = some x →
      ticks P t0 e ≤ ticks P t0 x.1 ∧ ticks P t0 r + n + 1 ≤ ticks P t0 x.1 ∧ x.1 ≤ x.2 ∧ e ≤ x.1 := by
  intro ds
  induction ds with
  | nil => intro r e _ _ n x h; simp [iterations] at h
  | cons d ds ih =>
    intro r e hre hd n x h
    have h0 := recv_ge (t0 := t0) (r := r) (e := e) hP
    have h1 := ticks_recv (t0 := t0) hP hre
    have h2 := ticks_mono (t0 := t0) hP h0
    have hd0 := hd d (by simp)
    cases n with
    | zero =>
      simp [iterations] at h
      subst h
      exact ⟨h2, by simpa using h1, by simp; omega, h0⟩
    | succ n =>
      simp only [iterations, List.getElem?_cons_succ] at h
      obtain ⟨a, b, c, e'⟩ := ih _ _ (by omega) (fun y hy => hd y (by simp [hy])) n x h
      refine ⟨?_, ?_, c, by omega⟩
      · have := ticks_mono (P := P) (t0 := t0) (a := e) (b := recv P t0 r e + d) hP (by omega)
        omega
      · simp only [Int.natCast_add, Int.natCast_one]; omega

theorem iterations_length {P t0 : Int} : ∀ (ds : List Int) (r e : Int), (iterations P t0 r e ds).length = ds.length := by
  intro ds
  induction ds with
  | nil => intro r e; rfl
  | cons d ds ih => intro r e; simp [iterations, ih]

theorem ticks_start (P t0 : Int) : ticks P t0 t0 = 0 := by simp [ticks]

/-- C85. No chunk leaves early: however long the iterations take, chunk `n` is handed over `n + 1` periods after the
ticker was created or later. -/
theorem C85_never_early (P t0 : Int) (hP : 0 < P) (ds : List Int) (hd : ∀ d ∈ ds, 0 ≤ d) (n : Nat) (x : Int)
    (h : (handed P t0 ds)[n]? = some x) : t0 + ((n : Int) + 1) * P ≤ x := by
  unfold handed at h
  rw [List.getElem?_map, Option.map_eq_some_iff] at h
  obtain ⟨y, hy, rfl⟩ := h
  obtain ⟨_, b, c, _⟩ := iterations_spec hP ds t0 t0 (Int.le_refl _) hd n y hy
  rw [ticks_start] at b
  have := le_of_ticks (t0 := t0) (t := y.1) (k := n + 1) hP (by omega)
  omega

theorem on_grid {P t0 : Int} (hP : 0 < P) : ∀ (ds : List Int) (k : Int), (∀ d ∈ ds, 0 ≤ d ∧ d ≤ P) →
    ∀ (e : Int), t0 + k * P ≤ e → e ≤ t0 + k * P + P →
    ∀ (n : Nat) (h : n < ds.length), (iterations P t0 (t0 + k * P) e ds)[n]? =
      some (t0 + (k + 1 + n) * P, t0 + (k + 1 + n) * P + ds[n]) := by
  intro ds
  induction ds with
  | nil => intro k _ e _ _ n h; simp at h
  | cons d ds ih =>
    intro k hd e h1 h2 n hn
    have hk1 : (k + 1) * P = k * P + P := by rw [Int.add_mul]; omega
    have hr : recv P t0 (t0 + k * P) e = t0 + (k + 1) * P := by
      have ht : ticks P t0 (t0 + k * P) = k := ticks_eq hP (Int.le_refl _) (by omega)
      unfold recv
      rw [ht]
      by_cases he : e < t0 + (k + 1) * P
      · have : ticks P t0 e = k := ticks_eq hP h1 he
        rw [this, if_neg (by omega)]
      · have hek : e = t0 + (k + 1) * P := by omega
        have : ticks P t0 e = k + 1 := ticks_eq hP (by omega) (by rw [Int.add_mul (k + 1)]; omega)
        rw [this, if_pos (by omega), hek]
    have hd0 := hd d (by simp)
    simp only [iterations, hr]
    cases n with
    | zero => simp
    | succ n =>
      simp only [List.getElem?_cons_succ, List.getElem_cons_succ]
      rw [ih (k + 1) (fun y hy => hd y (by simp [hy])) _ (by omega) (by omega) n (by simpa using hn)]
      simp only [Int.natCast_add, Int.natCast_one]
      rw [show k + 1 + 1 + (n : Int) = k + 1 + ((n : Int) + 1) by omega]

/-- C85, exactly, while no iteration takes longer than a period: chunk `n` is handed over `n + 1` periods after the
ticker was created plus the time its own iteration takes; nothing accumulates. -/
theorem C85_on_time_exact (P t0 : Int) (hP : 0 < P) (ds : List Int) (hd : ∀ d ∈ ds, 0 ≤ d ∧ d ≤ P) (n : Nat)
    (hn : n < ds.length) : (handed P t0 ds)[n]? = some (t0 + ((n : Int) + 1) * P + ds[n]) := by
  have h := on_grid (t0 := t0) hP ds 0 hd t0 (by omega) (by omega) n hn
  rw [show t0 + 0 * P = t0 by omega] at h
  unfold handed
  rw [List.getElem?_map, h]
  simp only [Option.map_some]
  congr 2
  rw [show (0 : Int) + 1 + n = n + 1 by omega]

/-- C85, the part that holds, for the messages themselves (`start`: the clock read just before the ticker was created,
`delay`: the stream delay): while no iteration takes longer than a chunk time, every chunk is handed to the network at
least `delay` minus two chunk times before it is due, minus the time between reading the clock and creating the ticker.
Missing from the full property: keeping the lead after a longer stall (`C85_stall_never_made_up`). -/
theorem C85_lead_partial {α : Type} (start t0 delay : Int) (size rate : Nat) (hP : 0 < StreamMusic.chunkTime size rate)
    (fills : List (Nat × List α × List α)) (ds : List Int) (hl : ds.length = fills.length)
    (hd : ∀ d ∈ ds, 0 ≤ d ∧ d ≤ StreamMusic.chunkTime size rate) (n : Nat) (hn : n < fills.length) :
    ∃ q i x, (StreamMusic.messages start delay size rate fills)[n]? = some (q, i) ∧
      (handed (StreamMusic.chunkTime size rate) t0 ds)[n]? = some x ∧
      x + (delay - 2 * StreamMusic.chunkTime size rate - (t0 - start)) ≤ q.startTime ∧
      q.startTime ≤ x + (delay - StreamMusic.chunkTime size rate - (t0 - start)) := by
  have hg := StreamMusic.messagesFrom_get (start + delay) (StreamMusic.chunkTime size rate) size 0 fills n hn
  have hx := C85_on_time_exact (StreamMusic.chunkTime size rate) t0 hP ds hd n (by omega)
  refine ⟨_, _, _, hg, hx, ?_, ?_⟩
  · have := hd _ (List.getElem_mem (show n < ds.length by omega))
    simp only [Int.zero_add]
    rw [Int.add_mul]
    omega
  · have := hd _ (List.getElem_mem (show n < ds.length by omega))
    simp only [Int.zero_add]
    rw [Int.add_mul]
    omega

theorem iterations_get_append {P t0 : Int} : ∀ (as bs : List Int) (r e : Int), ∃ r' e', (r ≤ e → (∀ a ∈ as, 0 ≤ a) → 0 < P → r' ≤ e' ∧
      ticks P t0 r + as.length ≤ ticks P t0 r') ∧
    iterations P t0 r e (as ++ bs) = iterations P t0 r e as ++ iterations P t0 r' e' bs := by
  intro as
  induction as with
  | nil => intro bs r e; exact ⟨r, e, fun h _ _ => ⟨h, by simp⟩, rfl⟩
  | cons a as ih =>
    intro bs r e
    obtain ⟨r', e', h1, h2⟩ := ih bs (recv P t0 r e) (recv P t0 r e + a)
    refine ⟨r', e', ?_, by simp [iterations, h2]⟩
    intro hre ha hP
    have ha0 := ha a (by simp)
    have := h1 (by omega) (fun y hy => ha y (by simp [hy])) hP
    have h3 := ticks_recv (t0 := t0) hP hre
    refine ⟨this.1, ?_⟩
    simp only [List.length_cons, Int.natCast_add, Int.natCast_one]
    omega

/-- C85 fails after a stall: if one iteration takes `m + 1` periods or more (`Fill` waits that long, e.g. because the
songs in the playlist cannot be read for a while), then all later chunks, however many and however fast, are handed
over at least `m` periods later than they would have been: the lost ticks are never made up. -/
theorem C85_stall_never_made_up (P t0 : Int) (hP : 0 < P) (as : List Int) (stall : Int) (bs : List Int)
    (ha : ∀ d ∈ as, 0 ≤ d) (hb : ∀ d ∈ bs, 0 ≤ d) (m : Nat) (hs : ((m : Int) + 1) * P ≤ stall) (n : Nat) (x : Int)
    (hn : as.length < n) (h : (handed P t0 (as ++ stall :: bs))[n]? = some x) :
    t0 + ((n : Int) + 1 + m) * P ≤ x := by
  obtain ⟨r', e', h1, h2⟩ := iterations_get_append (P := P) (t0 := t0) as (stall :: bs) t0 t0
  obtain ⟨h3, h4⟩ := h1 (Int.le_refl _) ha hP
  unfold handed at h
  rw [h2, List.getElem?_map, List.getElem?_append_right (by rw [iterations_length]; omega), iterations_length,
    Option.map_eq_some_iff] at h
  obtain ⟨y, hy, rfl⟩ := h
  rw [ticks_start] at h4
  obtain ⟨k, hk⟩ : ∃ k, n - as.length = k + 1 := ⟨n - as.length - 1, by omega⟩
  rw [hk] at hy
  simp only [iterations, List.getElem?_cons_succ] at hy
  have h5 := ticks_recv (t0 := t0) hP h3
  have hst : 0 ≤ stall := by
    have : 0 ≤ ((m : Int) + 1) * P := Int.mul_nonneg (by omega) (by omega)
    omega
  obtain ⟨c1, c2, c3, c4⟩ := iterations_spec hP bs _ _ (show recv P t0 r' e' ≤ recv P t0 r' e' + stall by omega) hb k y hy
  -- the stalled iteration: its end is m + 1 ticks after its beginning
  have h6 : ticks P t0 (recv P t0 r' e') + (m + 1) ≤ ticks P t0 (recv P t0 r' e' + stall) := by
    have := ticks_mono (t0 := t0) (a := recv P t0 r' e' + ((m : Int) + 1) * P) (b := recv P t0 r' e' + stall) hP (by omega)
    have e1 : ticks P t0 (recv P t0 r' e' + ((m : Int) + 1) * P) = ticks P t0 (recv P t0 r' e') + (m + 1) := by
      unfold ticks
      rw [show recv P t0 r' e' + ((m : Int) + 1) * P - t0 = (recv P t0 r' e' - t0) + ((m : Int) + 1) * P by omega,
        Int.add_mul_ediv_right _ _ (by omega)]
    omega
  -- the later ones
  have h7 : ticks P t0 (recv P t0 r' e') + (m + 1) + k ≤ ticks P t0 y.1 := by
    -- each later iteration adds at least one tick to the index at which the stalled one ended
    cases k with
    | zero => omega
    | succ k =>
      cases bs with
      | nil => simp [iterations] at hy
      | cons b bs =>
        simp only [iterations, List.getElem?_cons_succ] at hy
        have hb0 := hb b (by simp)
        have g0 := recv_ge (t0 := t0) (r := recv P t0 r' e') (e := recv P t0 r' e' + stall) hP
        obtain ⟨d1, d2, d3, d4⟩ := iterations_spec hP bs _ _
          (show recv P t0 (recv P t0 r' e') (recv P t0 r' e' + stall) ≤
            recv P t0 (recv P t0 r' e') (recv P t0 r' e' + stall) + b by omega)
          (fun y hy => hb y (by simp [hy])) k y hy
        have g1 := ticks_mono (t0 := t0) hP g0
        simp only [Int.natCast_add, Int.natCast_one]
        omega
  have := le_of_ticks (t0 := t0) (t := y.1) (k := (n : Int) + 1 + m) hP (by omega)
  omega

/-- C85, so a stall of the stream delay plus one chunk time makes the server send every later chunk after the time it
is due, forever. -/
theorem C85_stall_all_late {α : Type} (start t0 delay : Int) (size rate : Nat) (hst : start ≤ t0) (hdl : 0 ≤ delay)
    (hP : 0 < StreamMusic.chunkTime size rate)
    (fills : List (Nat × List α × List α)) (as : List Int) (stall : Int) (bs : List Int)
    (hl : (as ++ stall :: bs).length = fills.length) (ha : ∀ d ∈ as, 0 ≤ d) (hb : ∀ d ∈ bs, 0 ≤ d)
    (hs : delay + StreamMusic.chunkTime size rate ≤ stall) (n : Nat) (hn : as.length < n) (hn' : n < fills.length) :
    ∃ q i x, (StreamMusic.messages start delay size rate fills)[n]? = some (q, i) ∧
      (handed (StreamMusic.chunkTime size rate) t0 (as ++ stall :: bs))[n]? = some x ∧ q.startTime < x := by
  have hg := StreamMusic.messagesFrom_get (start + delay) (StreamMusic.chunkTime size rate) size 0 fills n hn'
  generalize hPe : StreamMusic.chunkTime size rate = P at *
  have hlen : n < (handed P t0 (as ++ stall :: bs)).length := by
    unfold handed; rw [List.length_map, iterations_length]; omega
  have hx : (handed P t0 (as ++ stall :: bs))[n]? = some (handed P t0 (as ++ stall :: bs))[n] :=
    List.getElem?_eq_getElem hlen
  refine ⟨_, _, _, (by unfold StreamMusic.messages; rw [hPe]; exact hg), hx, ?_⟩
  -- m + 1 = stall / P
  have hq0 : 1 ≤ stall / P := by
    rw [Int.le_ediv_iff_mul_le hP]; omega
  have hmul : stall / P * P ≤ stall := Int.ediv_mul_le stall (by omega)
  have hgt : stall < (stall / P + 1) * P := Int.lt_ediv_add_one_mul_self stall hP
  have hnat : (((stall / P).toNat - 1 : Nat) : Int) = stall / P - 1 := by omega
  have := C85_stall_never_made_up P t0 hP as stall bs ha hb ((stall / P).toNat - 1)
    (by rw [hnat]; rw [show stall / P - 1 + 1 = stall / P by omega]; exact hmul) n _ hn hx
  rw [hnat, show (n : Int) + 1 + (stall / P - 1) = n + stall / P by omega, Int.add_mul] at this
  simp only [Int.zero_add]
  rw [Int.add_mul, Int.one_mul] at hgt
  omega

/-- 4 s chunks: iterations of 1, 2 and 4 s keep the grid; a stall of 20 s (delay 15 s) makes all later chunks late. -/
example : handed 4 100 [1, 2, 4, 0] = [105, 110, 116, 116] ∧
    handed 4 100 [1, 20, 0, 0, 0] = [105, 128, 128, 132, 136] := by decide

example : (∀ d ∈ [(1 : Int), 2, 4, 0], 0 ≤ d ∧ d ≤ 4) ∧ (15 : Int) + 4 ≤ 20 := by decide

end MS.Ticker
