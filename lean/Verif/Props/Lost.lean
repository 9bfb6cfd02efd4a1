import Verif.Props.InSync
/-!
# C131: how much music is cut off when a player synchronises

C16 shows that a synchronising player never plays the first sample of a song. Here the amount is bounded from both sides: at the start of
a song, after a pause and after joining, between one output buffer and one output buffer, one call and one sample of music is lost.
-/
namespace MS.Lost
open MS.Streamer MS.InSync

variable {α : Type}

/-- Specification: a call comes at most `G` after the time `thr` or after the call before it. -/
def Gaps (G : Int) : Int → List Int → Prop
  | _, [] => True
  | t, x :: xs => x < t + G ∧ Gaps G x xs

theorem split {thr G : Int} : ∀ (nows : List Int) (t : Int), t ≤ thr → Gaps G t nows → (∃ x ∈ nows, thr ≤ x) →
    ∃ waits now rest, nows = waits ++ now :: rest ∧ (∀ w ∈ waits, w < thr) ∧ thr ≤ now ∧ now < thr + G
  | [], _, _, _, h => by obtain ⟨x, hx, _⟩ := h; cases hx
  | x :: xs, t, ht, hg, h => by
    obtain ⟨g1, g2⟩ := hg
    by_cases hx : thr ≤ x
    · exact ⟨[], x, xs, rfl, by simp, hx, by omega⟩
    · obtain ⟨waits, now, rest, e, h1, h2, h3⟩ := split (thr := thr) xs x (by omega) g2 (by
        obtain ⟨y, hy, hy2⟩ := h
        rcases List.mem_cons.1 hy with rfl | hy
        · exact absurd hy2 hx
        · exact ⟨y, hy, hy2⟩)
      refine ⟨x :: waits, now, rest, by rw [e]; rfl, ?_, h2, h3⟩
      intro w hw
      rcases List.mem_cons.1 hw with rfl | hw
      · omega
      · exact h1 w hw

/-- C131. A player that is synchronising has the samples `a`, ..., `a + n - 1` of the stream in its buffer, after any number of markers. It
is called for `len` samples at a time, the first time at most `G` after `t`, which is before sample `a` is a whole buffer overdue, then at most
`G` after the call before, until after that. Then there is a number `w` of calls and a sample `k` such that: the first `w` calls give
silence; from then on the samples `k`, `k + 1`, ... are played one after the other; and what is lost, the samples from `a` to before `k`, is
at least the length of an output buffer, and less than it, the time between two calls and one sample (up to a nanosecond). -/
theorem C131_lost (rate len size : Nat) (hl : 0 < len) (start G t : Int) (v : Nat → α) (a n : Nat) (hn : 0 < n)
    (nans tail : List (TS α)) (hnan : ∀ x ∈ nans, x.val = none) (nows : List Int)
    (ht : t ≤ due start size rate a + samplesDuration rate len) (hg : Gaps G t nows)
    (hreach : ∃ x ∈ nows, due start size rate a + samplesDuration rate len ≤ x)
    (hlong : due start size rate a + samplesDuration rate len + G ≤ due start size rate (a + n - 1) + 1)
    (out : List (Option α)) (sy' : Bool) (rest : List (TS α))
    (h : playLoop rate len nows true (nans ++ (stretch start size rate v a n ++ tail)) = some (out, sy', rest)) :
    ∃ w k, w < nows.length ∧ a ≤ k ∧ k < a + n ∧
      (∀ j, j < len * w → out[j]? = some none) ∧
      (∀ m, m < len * (nows.length - w) → k + m < a + n → out[len * w + m]? = some (some (v (k + m)))) ∧
      samplesDuration rate len ≤ due start size rate k - due start size rate a ∧
      due start size rate k - due start size rate a < samplesDuration rate len + G + samplesDuration rate 1 := by
  obtain ⟨waits, now, more, e, h1, h2, h3⟩ := split nows t ht hg hreach
  subst e
  obtain ⟨g1, k, g2, g3, g4, g5, g6⟩ := C71_on_schedule rate len size hl start v a n hn nans tail hnan waits now more h1 h2 (by omega) out sy' rest h
  refine ⟨waits.length, k, by simp, g2, g3, g1, ?_, by omega, by omega⟩
  intro m hm hk
  refine (g6 m ?_ hk).1
  rw [show (waits ++ now :: more).length - waits.length = more.length + 1 by simp] at hm
  exact hm

/-- The hypotheses can be met: a sample a second, two slots a call, calls every two seconds from second 1 on: sample 3 is the first one
played, at second 3. -/
theorem ex_lost : (playLoop 1 2 [1000000000, 3000000000, 5000000000] true
      (⟨none, 0⟩ :: (stretch 0 2 1 (fun i => i) 0 8 ++ []))).map (fun x => x.1) = some [none, none, some 3, some 4, some 5, some 6] ∧
    Gaps 2000000001 0 [1000000000, 3000000000, 5000000000] ∧
    due 0 2 1 0 + samplesDuration 1 2 + 2000000001 ≤ due 0 2 1 (0 + 8 - 1) + 1 := by
  refine ⟨by simp only [Option.map]; decide +kernel, by simp [Gaps], by decide⟩

end MS.Lost
