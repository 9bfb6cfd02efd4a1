import Verif.Lemmas.Streamer
/-!
# Properties C14, C15, C16: what the player outputs
-/
namespace MS.Streamer

variable {α : Type}

/-- Specification: what can happen to a buffered sample that was consumed. -/
inductive Fate where
  | played   -- written to the output
  | marker   -- a NaN marker (pause, song break), never audible
  | late     -- discarded while synchronising
  deriving DecidableEq, Repr

/-- Specification: the audible samples of an output. -/
def audible (out : List (Option α)) : List α := out.filterMap id

/-- Specification: the values of the consumed samples that were played. -/
def playedOf (fs : List (TS α × Fate)) : List (Option α) := (fs.filter (fun x => decide (x.2 = .played))).map (·.1.val)

theorem audible_replicate (n : Nat) : audible (List.replicate n (none : Option α)) = [] := by
  simp [audible]

theorem audible_some (vs : List α) : audible (vs.map some) = vs := by
  simp [audible, List.filterMap_map]

theorem audible_append (a b : List (Option α)) : audible (a ++ b) = audible a ++ audible b := by
  simp [audible]

theorem playedOf_append (a b : List (TS α × Fate)) : playedOf (a ++ b) = playedOf a ++ playedOf b := by
  simp [playedOf]

theorem playedOf_map_not (l : List (TS α)) (f : Fate) (hf : f ≠ .played) : playedOf (l.map (fun x => (x, f))) = [] := by
  induction l with
  | nil => rfl
  | cons x l ih => simp [playedOf, hf] at ih ⊢

theorem playedOf_map_played (l : List (TS α)) : playedOf (l.map (fun x => (x, Fate.played))) = l.map (·.val) := by
  induction l with
  | nil => rfl
  | cons x l ih => simp [playedOf] at ih ⊢; exact ih

/-- Specification of a run: consumed samples with their fates. -/
structure Accounts (rate len : Nat) (now : Int) (q : List (TS α)) (out : List (Option α)) (rest : List (TS α))
    (fs : List (TS α × Fate)) : Prop where
  /-- the consumed samples are exactly the first ones of the buffer, in order, and the rest stays -/
  consumed : fs.map Prod.fst ++ rest = q
  /-- the audible output is exactly the played samples in order -/
  played : playedOf fs = (audible out).map some
  /-- markers are NaN samples -/
  marker : ∀ x ∈ fs, x.2 = .marker → x.1.val = none
  /-- only samples due before the end of the output window are discarded -/
  late : ∀ x ∈ fs, x.2 = .late → x.1.time < now + samplesDuration rate len

theorem run_accounts {rate len : Nat} {now : Int} {sy : Bool} {q : List (TS α)} {out sy' r}
    (h : Run rate len now sy q out sy' r) : out.length = len ∧ ∃ fs, Accounts rate len now q out r fs := by
  induction h with
  | done now sy q => exact ⟨rfl, [], by constructor <;> simp [playedOf, audible]⟩
  | @wait len now q nans r' s h0 h1 h2 h3 h4 =>
    refine ⟨by simp, nans.map (fun x => (x, Fate.marker)), ?_, ?_, ?_, ?_⟩
    · simp [Function.comp_def, h1]
    · rw [audible_replicate, playedOf_map_not _ _ (by simp)]; simp
    · simpa using h2
    · simp
  | @start len now q nans late r' tl s f out sy q' h0 h1 h2 h3 h4 h5 h6 h7 _ ih =>
    obtain ⟨i1, fs, a1, a2, a3, a4⟩ := ih
    refine ⟨i1, nans.map (fun x => (x, Fate.marker)) ++ (late.map (fun x => (x, Fate.late)) ++ fs), ?_, ?_, ?_, ?_⟩
    · simp [Function.comp_def, h1, a1]
    · rw [playedOf_append, playedOf_append, playedOf_map_not _ _ (by simp), playedOf_map_not _ _ (by simp), a2]; simp
    · intro x hx hm
      simp only [List.mem_append, List.mem_map] at hx
      rcases hx with ⟨y, hy, rfl⟩ | ⟨y, hy, rfl⟩ | hx
      · exact h2 y hy
      · simp at hm
      · exact a3 x hx hm
    · intro x hx hm
      have hD := dur_nonneg rate len
      simp only [List.mem_append, List.mem_map] at hx
      rcases hx with ⟨y, hy, rfl⟩ | ⟨y, hy, rfl⟩ | hx
      · simp at hm
      · have := h3 y hy; simp only; omega
      · exact a4 x hx hm
  | @play len now q vs r p h0 h1 h2 h3 =>
    refine ⟨by simp [h3], p.map (fun x => (x, Fate.played)), ?_, ?_, ?_, ?_⟩
    · simp [Function.comp_def, h1]
    · rw [audible_some, playedOf_map_played, h2]
    · intro x hx hm
      simp only [List.mem_map] at hx
      obtain ⟨y, _, rfl⟩ := hx
      simp at hm
    · intro x hx hm
      simp only [List.mem_map] at hx
      obtain ⟨y, _, rfl⟩ := hx
      simp at hm
  | @stop len now q vs r p x out sy q' h0 h1 h2 h3 h4 _ ih =>
    obtain ⟨i1, fs, a1, a2, a3, a4⟩ := ih
    refine ⟨by simp [i1]; omega, p.map (fun x => (x, Fate.played)) ++ (x, Fate.marker) :: fs, ?_, ?_, ?_, ?_⟩
    · simp [Function.comp_def, h1, a1]
    · rw [playedOf_append, playedOf_map_played, audible_append, audible_some, h2]
      rw [show (x, Fate.marker) :: fs = [x].map (fun x => (x, Fate.marker)) ++ fs from rfl, playedOf_append,
        playedOf_map_not _ _ (by simp), a2]
      simp
    · intro y hy hm
      simp only [List.mem_append, List.mem_map, List.mem_cons] at hy
      rcases hy with ⟨z, hz, rfl⟩ | rfl | hy
      · simp at hm
      · exact h4
      · exact a3 y hy hm
    · intro y hy hm
      simp only [List.mem_append, List.mem_map, List.mem_cons] at hy
      rcases hy with ⟨z, hz, rfl⟩ | rfl | hy
      · simp at hm
      · simp at hm
      · have := a4 y hy hm
        have hd := dur_add rate vs.length (len - vs.length)
        rw [show vs.length + (len - vs.length) = len by omega] at hd
        omega

/-- C14. `Stream` of a slice of `len` samples writes exactly `len` samples. -/
theorem C14_length (rate len : Nat) (now : Int) (sy : Bool) (q : List (TS α)) (out : List (Option α)) (sy' : Bool)
    (rest : List (TS α)) (h : stream rate len now sy q = some (out, sy', rest)) : out.length = len :=
  (run_accounts (stream_run h)).1

/-- C14. Every consumed sample is accounted for: the consumed samples are the first ones of the buffer; those played
are exactly the audible output in order; those not played are NaN markers, or were discarded while synchronising and
were due before the end of the window being filled. -/
theorem C14_every_sample_accounted (rate len : Nat) (now : Int) (sy : Bool) (q : List (TS α)) (out : List (Option α))
    (sy' : Bool) (rest : List (TS α)) (h : stream rate len now sy q = some (out, sy', rest)) :
    ∃ fs, Accounts rate len now q out rest fs :=
  (run_accounts (stream_run h)).2

theorem sublist_of_fates {fs : List (TS α × Fate)} : (playedOf fs).Sublist ((fs.map Prod.fst).map (·.val)) := by
  simp only [playedOf, List.map_map]
  exact List.Sublist.map (fun x : TS α × Fate => x.1.val) List.filter_sublist

/-- C14. Over any number of `Stream` calls at any clock times the audible output is, in order, a subsequence of the
samples consumed from the buffer: none is played twice and none out of order. -/
theorem C14_in_order (rate len : Nat) (nows : List Int) (sy : Bool) (q : List (TS α)) (out : List (Option α))
    (sy' : Bool) (rest : List (TS α)) (h : playLoop rate len nows sy q = some (out, sy', rest)) :
    out.length = len * nows.length ∧
    ∃ consumed, consumed ++ rest = q ∧ ((audible out).map some).Sublist (consumed.map (·.val)) := by
  induction nows generalizing sy q out with
  | nil => simp [playLoop] at h; obtain ⟨rfl, rfl, rfl⟩ := h; exact ⟨rfl, [], rfl, by simp [audible]⟩
  | cons now nows ih =>
    simp only [playLoop] at h
    split at h
    · simp at h
    · rename_i o s1 q1 h1
      split at h
      · simp at h
      · rename_i o2 s2 q2 h2
        simp at h
        obtain ⟨rfl, rfl, rfl⟩ := h
        obtain ⟨l1, fs, a⟩ := run_accounts (stream_run h1)
        obtain ⟨l2, c2, e2, b2⟩ := ih _ _ _ h2
        refine ⟨by simp [l1, l2, Nat.mul_succ, Nat.add_comm], fs.map Prod.fst ++ c2, by rw [List.append_assoc, e2, a.consumed], ?_⟩
        rw [audible_append, List.map_append, List.map_append, ← a.played]
        exact List.Sublist.append sublist_of_fates b2

/-- C14. In direct mode nothing is lost: if the next `len` samples are no markers they are written exactly, and the
player stays in direct mode. -/
theorem C14_direct_exact (rate len : Nat) (now : Int) (p rest : List (TS α)) (vs : List α)
    (hp : p.map (·.val) = vs.map some) (hl : vs.length = len) :
    stream rate len now false (p ++ rest) = some (vs.map some, false, rest) := by
  have hd : ∀ (vs : List α) (p : List (TS α)), p.map (·.val) = vs.map some →
      streamDirect vs.length (p ++ rest) = some (vs, false, rest) := by
    intro vs
    induction vs with
    | nil => intro p hp; simp at hp; subst hp; rfl
    | cons v vs ih =>
      intro p hp
      cases p with
      | nil => simp at hp
      | cons x p =>
        simp at hp
        simp [streamDirect, hp.1, ih p (by simpa using hp.2)]
  rw [stream]
  split
  · rename_i h0
    have : vs = [] := by simpa using (show vs.length = 0 by omega)
    subst this
    simp at hp; subst hp; simp
  · simp only [Bool.false_eq_true, dite_false]
    have := hd vs p hp
    rw [hl] at this
    split
    · rename_i hx; rw [this] at hx; simp at hx
    · rename_i hx
      rw [this] at hx
      simp at hx
      obtain ⟨rfl, rfl, rfl⟩ := hx
      simp

/-- C14, later samples never change what a returned call did (a call that blocked is the same call continued). -/
theorem C14_blocking_is_waiting (rate len : Nat) (now : Int) (sy : Bool) (q more : List (TS α)) (out : List (Option α))
    (sy' : Bool) (rest : List (TS α)) (h : stream rate len now sy q = some (out, sy', rest)) :
    stream rate len now sy (q ++ more) = some (out, sy', rest ++ more) :=
  stream_more more _ _ _ _ _ _ _ _ (Nat.le_refl _) h

/-- C15. While synchronising only silence is written; when the player decides to leave synchronising mode at output
time `now` it has dropped, besides leading NaN markers, only samples due before `now`, the next sample is due at or
after `now`, and if queued samples are never more than `p` apart it is due less than `p` after `now`. -/
theorem C15_leaves_sync_aligned (rate len : Nat) (now p : Int) (hp : 0 < p) (q : List (TS α)) (n : Nat)
    (rest : List (TS α)) (h : streamSync rate len now q = some (n, true, rest))
    (hc : ∀ a x y b, q = a ++ x :: y :: b → y.time - x.time ≤ p) :
    n = 0 ∧ ∃ nans late next rest', q = nans ++ late ++ next :: rest' ∧ rest = next :: rest' ∧
      (∀ x ∈ nans, x.val = none) ∧ (∀ x ∈ late, x.time < now) ∧ now ≤ next.time ∧ next.time < now + p := by
  rcases sync_spec h with ⟨hd, _⟩ | ⟨_, rfl, nans, late, s, r', f, tl, g1, g2, g3, g4, g5, g6, g7, g8⟩
  · simp at hd
  · refine ⟨rfl, nans, late, s, r', by rw [g1, g2, List.append_assoc], g2, g4, g5, g6, ?_⟩
    have hD := dur_nonneg rate len
    rcases List.eq_nil_or_concat late with rfl | ⟨l0, x, rfl⟩
    · simp [g2] at g3
      obtain ⟨rfl, _⟩ := g3
      omega
    · have hx := g5 x (by simp)
      have := hc (nans ++ l0) x s r' (by rw [g1, g2]; simp)
      omega

/-- C15, a call that stays in synchronising mode writes silence only and consumes NaN markers only. -/
theorem C15_sync_is_silent (rate len : Nat) (now : Int) (q : List (TS α)) (n : Nat) (rest : List (TS α))
    (h : streamSync rate len now q = some (n, false, rest)) (hl : 0 < len) :
    stream rate len now true q = some (List.replicate len none, true, rest) ∧
    ∃ nans, q = nans ++ rest ∧ ∀ x ∈ nans, x.val = none := by
  rcases sync_spec h with ⟨_, rfl, nans, s, r', g1, g2, g3, g4, g5⟩ | ⟨hd, _⟩
  · refine ⟨?_, nans, g1, g3⟩
    rw [stream]
    rw [if_neg (by omega), dif_pos rfl]
    split
    · rename_i hx; rw [h] at hx; simp at hx
    · rename_i hx
      rw [h] at hx
      simp at hx
      obtain ⟨rfl, rfl, rfl⟩ := hx
      simp
  · simp at hd

/-- The ideal buffer content: `N` samples without markers, sample `i` due at `T + D(i)`. -/
def ideal (rate : Nat) (T : Int) (vs : List α) : List (TS α) :=
  (List.range vs.length).zipWith (fun i v => ⟨some v, T + samplesDuration rate i⟩) vs

theorem ideal_get (rate : Nat) (T : Int) (vs : List α) (i : Nat) (h : i < vs.length) :
    (ideal rate T vs)[i]'(by simpa [ideal] using h) = ⟨some vs[i], T + samplesDuration rate i⟩ := by
  simp [ideal]

theorem ideal_length (rate : Nat) (T : Int) (vs : List α) : (ideal rate T vs).length = vs.length := by simp [ideal]

/-- C15, end to end for a contiguous stream: if a synchronising player whose buffer holds contiguous samples starts
playing during this call, then it writes no silence and every sample it writes is output at its due time: not before
and at most one sample period plus one nanosecond after the start of its output slot. -/
theorem C15_contiguous_output_on_time (rate len : Nat) (now T : Int) (vs : List α) (out : List (Option α))
    (rest : List (TS α)) (hl : 0 < len)
    (h : stream rate len now true (ideal rate T vs) = some (out, false, rest)) :
    ∃ k, k + len ≤ vs.length ∧ out = ((vs.drop k).take len).map some ∧ rest = (ideal rate T vs).drop (k + len) ∧
      ∀ j, j < len → now + samplesDuration rate j ≤ T + samplesDuration rate (k + j) ∧
        T + samplesDuration rate (k + j) ≤ now + samplesDuration rate j + samplesDuration rate 1 + 1 := by
  have hr := stream_run h
  have hval : ∀ x ∈ ideal rate T vs, x.val ≠ none := by
    intro x hx
    obtain ⟨i, hi, rfl⟩ := List.getElem_of_mem hx
    rw [ideal_get _ _ _ _ (by simpa [ideal] using hi)]
    simp
  generalize hq : ideal rate T vs = q at hr
  generalize hsy : true = sy at hr
  generalize hsf : false = sy' at hr
  cases hr with
  | done => subst hsy; simp at hsf
  | wait => simp at hsf
  | play => simp at hsy
  | stop => simp at hsy
  | @start _ _ _ nans late r' tl s f _ _ _ h0 h1 h2 h3 h4 h5 h6 h7 h8 =>
    subst hsf
    have hn : nans = [] := by
      cases nans with
      | nil => rfl
      | cons x nans =>
        exact absurd (h2 x (by simp)) (hval x (by rw [hq, h1]; simp))
    subst hn
    simp only [List.nil_append] at h1
    -- late = first k samples
    have hk : late.length < vs.length := by
      have := congrArg List.length (hq.trans h1)
      rw [ideal_length] at this
      simp at this; omega
    have hlate : late = (ideal rate T vs).take late.length := by rw [hq, h1]; simp
    have hrest : s :: r' = (ideal rate T vs).drop late.length := by rw [hq, h1]; simp
    have hs : s = ⟨some vs[late.length], T + samplesDuration rate late.length⟩ := by
      rw [← ideal_get rate T vs late.length hk]
      have : (s :: r')[0]? = ((ideal rate T vs).drop late.length)[0]? := by rw [hrest]
      rw [List.getElem?_drop] at this
      simp at this
      rw [List.getElem?_eq_getElem (by simpa [ideal] using hk)] at this
      simpa using this
    generalize hgk : late.length = k at *
    -- direct part
    generalize hq2 : s :: r' = q2 at h8
    generalize hsy2 : false = sy2 at h8
    cases h8 with
    | done => exact absurd rfl h0
    | wait => simp at hsy2
    | start => simp at hsy2
    | @stop _ _ _ ws r p x o _ _ g0 g1 g2 g3 g4 g5 =>
      exfalso
      exact hval x (by
        have : x ∈ (ideal rate T vs).drop k := by rw [← hrest, hq2, g1]; simp
        exact List.mem_of_mem_drop this) g4
    | @play _ _ _ ws r p g0 g1 g2 g3 =>
      have hplen : p.length = len := by
        have := congrArg List.length g2
        simp at this; omega
      have hdrop : (ideal rate T vs).drop k = p ++ rest := by rw [← hrest, hq2, g1]
      have hlen : k + len ≤ vs.length := by
        have := congrArg List.length hdrop
        simp [ideal_length] at this
        omega
      refine ⟨k, hlen, ?_, ?_, ?_⟩
      · rw [← g2]
        have : p = ((ideal rate T vs).drop k).take len := by rw [hdrop, ← hplen]; simp
        rw [this]
        apply List.ext_getElem
        · simp [ideal_length]
        · intro i hi1 hi2
          simp at hi1 hi2
          simp only [List.getElem_map, List.getElem_take, List.getElem_drop]
          rw [ideal_get _ _ _ _ (by omega)]
      · rw [← hq, ← List.drop_drop, hdrop, ← hplen]; simp
      · intro j hj
        have ha := dur_add rate k j
        have hb := dur_add_le rate k j
        rw [hs] at h4
        simp only at h4
        refine ⟨by omega, ?_⟩
        rcases Nat.eq_zero_or_pos k with hk0 | hkpos
        · subst hk0
          have : late = [] := by simpa using hgk
          subst this
          simp at h5
          have hD := dur_nonneg rate len
          obtain ⟨rfl, _⟩ := h5
          rw [hs] at h7
          simp only at h7
          have h1' := dur_nonneg rate 1
          omega
        · have hx := h3 (⟨some (vs[k - 1]'(by omega)), T + samplesDuration rate (k - 1)⟩) (by
            rw [hlate, ← ideal_get rate T vs (k - 1) (by omega)]
            have hlt : k - 1 < ((ideal rate T vs).take k).length := by simp [ideal_length]; omega
            have := List.getElem_mem hlt
            rwa [List.getElem_take] at this)
          simp only at hx
          have hc := dur_add_le rate (k - 1) 1
          rw [show k - 1 + 1 = k by omega] at hc
          omega

/-- C16, refuted (model of the code as written). The branch of `streamSync` that would start a song on time is never
taken: for every clock time, buffer and slice, `streamSync` either fills the whole slice with silence or writes
nothing at all. -/
theorem C16_middle_branch_dead (rate len : Nat) (now : Int) (q : List (TS α)) (n : Nat) (d : Bool) (rest : List (TS α))
    (h : streamSync rate len now q = some (n, d, rest)) : (d = false ∧ n = len) ∨ (d = true ∧ n = 0) := by
  rcases sync_spec h with ⟨rfl, rfl, _⟩ | ⟨rfl, rfl, _⟩
  · exact .inl ⟨rfl, rfl⟩
  · exact .inr ⟨rfl, rfl⟩

/-- C16, refuted. Whatever the clock times of the calls, even if the sample is queued long before it is due, a
synchronising player never plays the first sample of the song: either it is still waiting and everything written so
far is silence, or all audible output comes from the samples after it. (`samplesDuration rate len > 0` holds
for every real sample rate.) -/
theorem C16_first_sample_never_played (rate len : Nat) (nows : List Int) (nans : List (TS α)) (first : TS α)
    (song : List (TS α)) (out : List (Option α)) (sy' : Bool) (rest : List (TS α))
    (hn : ∀ x ∈ nans, x.val = none) (hf : first.val.isSome) (hd : 0 < samplesDuration rate len)
    (h : playLoop rate len nows true (nans ++ first :: song) = some (out, sy', rest)) :
    (audible out = [] ∧ sy' = true ∧ ∃ nans', rest = nans' ++ first :: song) ∨
    (∃ consumed, consumed ++ rest = song ∧ ((audible out).map some).Sublist (consumed.map (·.val))) := by
  induction nows generalizing nans out with
  | nil =>
    simp [playLoop] at h
    obtain ⟨rfl, rfl, rfl⟩ := h
    exact .inl ⟨by simp [audible], rfl, nans, rfl⟩
  | cons now nows ih =>
    simp only [playLoop] at h
    split at h
    · simp at h
    · rename_i o s1 q1 h1
      split at h
      · simp at h
      · rename_i o2 s2 q2 h2
        simp at h
        obtain ⟨rfl, rfl, rfl⟩ := h
        have hr := stream_run h1
        have hfst : ∀ {nans' : List (TS α)} {s r}, (∀ x ∈ nans', x.val = none) → s.val.isSome →
            nans ++ first :: song = nans' ++ s :: r → s = first ∧ r = song := by
          intro nans' s r a b c
          have e1 := skipNaN_append (r := song) hn hf
          have e2 := skipNaN_append (r := r) a b
          rw [c, e2] at e1
          simpa using e1
        generalize hq : nans ++ first :: song = q at hr
        generalize hsy : true = sy at hr
        cases hr with
        | done => simp [samplesDuration] at hd
        | play => simp at hsy
        | stop => simp at hsy
        | @wait _ _ _ nans' r' s g0 g1 g2 g3 g4 =>
          obtain ⟨rfl, rfl⟩ := hfst g2 g3 (hq.trans g1)
          rw [audible_append, audible_replicate, List.nil_append]
          exact ih [] o2 (by simp) h2
        | @start _ _ _ nans' late r' tl s f _ _ _ g0 g1 g2 g3 g4 g5 g6 g7 g8 =>
          right
          rw [g5] at g1
          obtain ⟨rfl, rfl⟩ := hfst g2 g6 (hq.trans g1)
          obtain ⟨l0, hl0⟩ : ∃ l0, late = f :: l0 := by
            cases late with
            | nil =>
              simp at g5
              obtain ⟨rfl, _⟩ := g5
              omega
            | cons y l0 => simp at g5; exact ⟨l0, by rw [g5.1]⟩
          subst hl0
          simp at g5
          obtain ⟨fs, a⟩ := (run_accounts g8).2
          obtain ⟨_, c2, e2, b2⟩ := C14_in_order _ _ _ _ _ _ _ _ h2
          refine ⟨l0 ++ (fs.map Prod.fst ++ c2), ?_, ?_⟩
          · rw [List.append_assoc, List.append_assoc, e2, a.consumed, g5]
          · rw [audible_append, List.map_append, List.map_append, List.map_append, ← a.played]
            exact (List.Sublist.append sublist_of_fates b2).trans (List.sublist_append_right _ _)

/-- C16, partial: what is true. When a synchronising player starts, the samples it cuts from the beginning of the song are
only those already due (before `now`); a sample due at or after `now` is never cut. -/
theorem C16_cut_only_overdue_partial (rate len : Nat) (now : Int) (nans : List (TS α)) (song : List (TS α)) (n : Nat)
    (rest : List (TS α)) (hn : ∀ x ∈ nans, x.val = none) (hs : ∀ x ∈ song, x.val.isSome)
    (h : streamSync rate len now (nans ++ song) = some (n, true, rest)) :
    ∃ cut, song = cut ++ rest ∧ ∀ x ∈ cut, x.time < now := by
  rcases sync_spec h with ⟨hd, _⟩ | ⟨_, rfl, nans', late, s, r', f, tl, g1, g2, g3, g4, g5, g6, g7, g8⟩
  · simp at hd
  · cases song with
    | nil =>
      exfalso
      have : f ∈ nans := by
        have : nans = nans' ++ f :: tl := by rw [← g3]; simpa using g1
        rw [this]; simp
      rw [hn f this] at g7
      simp at g7
    | cons x song =>
      have e1 := skipNaN_append (r := song) hn (hs x (by simp))
      have e2 := skipNaN_append (r := tl) g4 g7
      rw [g1, g3, e2] at e1
      simp at e1
      refine ⟨late, ?_, g5⟩
      rw [g3, e1.1, e1.2]

/-- Non-vacuity: a song queued in good time is cut (rate 1000/s, slice of 2 samples = 2 ms); markers are skipped. -/
example : playLoop (α := Nat) 1000 2 [0, 2000000, 4000000]
    true [⟨none, 0⟩, ⟨some 1, 2000000⟩, ⟨some 2, 3000000⟩, ⟨some 3, 4000000⟩, ⟨some 4, 5000000⟩] =
    some ([none, none, none, none, some 3, some 4], false, []) := by
  simp [playLoop, stream, streamSync, skipNaN, samplesDuration, dropLate, streamDirect, List.replicate]

end MS.Streamer

namespace MS.Streamer

/-- Non-vacuity of `C15_contiguous_output_on_time`. -/
example : stream 1000 2 4500000 true (ideal 1000 1000000 ['a', 'b', 'c', 'd', 'e', 'f']) =
    some ([some 'e', some 'f'], false, []) := by
  simp [ideal, List.range, List.range.loop, stream, streamSync, skipNaN, samplesDuration, dropLate, streamDirect]

end MS.Streamer
