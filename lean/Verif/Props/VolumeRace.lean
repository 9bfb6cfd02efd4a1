import Verif.Model.VolumeRace
import Verif.Props.Sender
/-!
# Property C103: volume commands of several sessions
-/
set_option linter.unusedVariables false
namespace MS.VolumeRace
open MS.Sender (Star)

/-! ## Specification -/

/-- Every command has replied. -/
def Finished (s : St) : Prop := ∀ c ∈ s.cmds, (∃ u, c = .replied u) ∨ c = .rejected

/-- What the player behind connection `c` was last told. -/
def lastTold (s : St) (c : Nat) : Option UInt64 := (s.inbox c).getLast?

/-- A command that has set the volume and whose broadcast has not ended. -/
def underWay : Cmd → Bool
  | .assigned => true
  | .sending _ _ => true
  | _ => false

/-- Executions in which never two commands are under way. -/
def OneAtATime (n : Nat) (a b : St) : Prop := Step n a b ∧ b.cmds.countP underWay ≤ 1

theorem star_trans {α : Type} {r : α → α → Prop} {a b c : α} (h1 : Star r a b) (h2 : Star r b c) : Star r a c := by
  induction h2 with
  | refl => exact h1
  | tail _ hs ih => exact .tail ih hs

/-! ## Every execution -/

/-- A value one of the commands stores. -/
def Asked (vs : List (Option UInt64)) (u : UInt64) : Prop := some u ∈ vs ∨ (u = 0 ∧ none ∈ vs)

def ValInv (v0 : UInt64) (vs : List (Option UInt64)) (s : St) : Prop :=
  (∀ o, Cmd.parsed o ∈ s.cmds → o ∈ vs) ∧ (∀ u p, Cmd.sending u p ∈ s.cmds → Asked vs u) ∧
  (∀ u, Cmd.replied u ∈ s.cmds → Asked vs u) ∧ (∀ c, ∀ u ∈ s.inbox c, Asked vs u) ∧
  (Asked vs s.stored ∨ (s.stored = v0 ∧ ∀ c ∈ s.cmds, ∃ o, c = .parsed o))

theorem valInv_step {n : Nat} {v0 : UInt64} {vs : List (Option UInt64)} (a b : St) (h : ValInv v0 vs a)
    (hs : Step n a b) : ValInv v0 vs b := by
  obtain ⟨h1, h2, h3, h4, h5⟩ := h
  cases hs with
  | assign A B v e =>
    rw [e] at h1 h2 h3 h5
    refine ⟨fun o ho => h1 o ?_, fun u p hu => h2 u p ?_, fun u hu => h3 u ?_, h4, .inl (.inl (h1 _ (by simp)))⟩ <;>
      grind
  | reject A B e =>
    rw [e] at h1 h2 h3 h5
    refine ⟨fun o ho => h1 o ?_, fun u p hu => h2 u p ?_, fun u hu => h3 u ?_, h4, .inl (.inr ⟨rfl, h1 _ (by simp)⟩)⟩ <;>
      grind
  | build A B e =>
    rw [e] at h1 h2 h3 h5
    have hst : Asked vs a.stored := by
      rcases h5 with h5 | ⟨_, h5⟩
      · exact h5
      · obtain ⟨o, ho⟩ := h5 .assigned (by simp); simp at ho
    refine ⟨fun o ho => h1 o ?_, fun u p hu => ?_, fun u hu => h3 u ?_, h4, .inl hst⟩
    · grind
    · simp only [List.mem_append, List.mem_cons, Cmd.sending.injEq] at hu
      rcases hu with hu | ⟨rfl, _⟩ | hu
      · exact h2 u p (by simp [hu])
      · exact hst
      · exact h2 u p (by simp [hu])
    · grind
  | write A B u P Q c e =>
    rw [e] at h1 h2 h3 h5
    have hu := h2 u (P ++ c :: Q) (by simp)
    have hst : Asked vs a.stored := by
      rcases h5 with h5 | ⟨_, h5⟩
      · exact h5
      · obtain ⟨o, ho⟩ := h5 (.sending u (P ++ c :: Q)) (by simp); simp at ho
    refine ⟨fun o ho => h1 o ?_, fun w p hw => ?_, fun u hu => h3 u ?_, fun d w hw => ?_, .inl hst⟩
    · grind
    · simp only [List.mem_append, List.mem_cons, Cmd.sending.injEq] at hw
      rcases hw with hw | ⟨rfl, _⟩ | hw
      · exact h2 w p (by simp [hw])
      · exact hu
      · exact h2 w p (by simp [hw])
    · grind
    · simp only at hw
      split at hw
      · rcases List.mem_append.1 hw with hw | hw
        · exact h4 _ w hw
        · simp at hw; rw [hw]; exact hu
      · exact h4 _ w hw
  | wait A B u e =>
    rw [e] at h1 h2 h3 h5
    have hst : Asked vs a.stored := by
      rcases h5 with h5 | ⟨_, h5⟩
      · exact h5
      · obtain ⟨o, ho⟩ := h5 (.sending u []) (by simp); simp at ho
    refine ⟨fun o ho => h1 o ?_, fun u p hu => h2 u p ?_, fun u hu => h3 u ?_, h4, .inl hst⟩ <;> grind
  | reply A B e =>
    rw [e] at h1 h2 h3 h5
    have hst : Asked vs a.stored := by
      rcases h5 with h5 | ⟨_, h5⟩
      · exact h5
      · obtain ⟨o, ho⟩ := h5 .sent (by simp); simp at ho
    refine ⟨fun o ho => h1 o ?_, fun u p hu => h2 u p ?_, fun u hu => ?_, h4, .inl hst⟩
    · grind
    · grind
    · simp only [List.mem_append, List.mem_cons, Cmd.replied.injEq] at hu
      rcases hu with hu | rfl | hu
      · exact h3 u (by simp [hu])
      · exact hst
      · exact h3 u (by simp [hu])

/-- C103, all schedules: players are only told volumes some session asked for (or 0, if a session's argument was no
number), and the same holds for the replies and, once a command has replied, for the volume stored. -/
theorem C103_values (n : Nat) (v0 : UInt64) (vs : List (Option UInt64)) (s : St) (h : Star (Step n) (St.init v0 vs) s) :
    (∀ c, ∀ u ∈ s.inbox c, Asked vs u) ∧ (∀ u, Cmd.replied u ∈ s.cmds → Asked vs u ∧ Asked vs s.stored) := by
  have : ValInv v0 vs s := by
    refine MS.Sender.Star.inv (P := ValInv v0 vs) valInv_step h ?_
    refine ⟨?_, ?_, ?_, ?_, .inr ⟨rfl, ?_⟩⟩ <;> simp [St.init]
  obtain ⟨_, _, h3, h4, h5⟩ := this
  refine ⟨h4, fun u hu => ⟨h3 u hu, ?_⟩⟩
  rcases h5 with h5 | ⟨_, h5⟩
  · exact h5
  · obtain ⟨o, ho⟩ := h5 _ hu; simp at ho

/-- Sent or being sent to `c`. -/
def Owed (c : Nat) (s : St) : Prop :=
  (∀ x ∈ s.cmds, ∃ v, x = .parsed (some v)) ∨
  (Cmd.parsed none ∉ s.cmds ∧ (Cmd.assigned ∈ s.cmds ∨ (∃ p, Cmd.sending s.stored p ∈ s.cmds ∧ c ∈ p) ∨ s.stored ∈ s.inbox c))

theorem owed_step {n : Nat} {c : Nat} (hc : c < n) (a b : St) (h : Owed c a) (hs : Step n a b) : Owed c b := by
  cases hs with
  | assign A B v e =>
    refine .inr ⟨?_, .inl (by simp)⟩
    rcases h with h | ⟨h, _⟩
    · intro hm
      have : Cmd.parsed none ∈ a.cmds := by rw [e]; simp at hm; simp [hm]
      obtain ⟨v, hv⟩ := h _ this; simp at hv
    · rw [e] at h; simp at h ⊢; exact h
  | reject A B e =>
    exfalso
    rcases h with h | ⟨h, _⟩
    · obtain ⟨v, hv⟩ := h (.parsed none) (by rw [e]; simp); simp at hv
    · rw [e] at h; simp at h
  | build A B e =>
    rcases h with h | ⟨h, _⟩
    · obtain ⟨v, hv⟩ := h .assigned (by rw [e]; simp); simp at hv
    · refine .inr ⟨by rw [e] at h; simp at h ⊢; exact h, .inr (.inl ⟨List.range n, by simp, by simpa using hc⟩)⟩
  | write A B u P Q d e =>
    rcases h with h | ⟨h, h2⟩
    · obtain ⟨v, hv⟩ := h (.sending u (P ++ d :: Q)) (by rw [e]; simp); simp at hv
    · refine .inr ⟨by rw [e] at h; simp at h ⊢; exact h, ?_⟩
      rw [e] at h2
      rcases h2 with h2 | ⟨p, h2, h3⟩ | h2
      · left; simpa using h2
      · right
        simp only [List.mem_append, List.mem_cons, Cmd.sending.injEq] at h2
        rcases h2 with h2 | ⟨e1, e2⟩ | h2
        · exact .inl ⟨p, by simp [h2], h3⟩
        · by_cases hcd : c = d
          · right; simp [hcd, e1]
          · left
            refine ⟨P ++ Q, by simp [e1], ?_⟩
            rw [e2] at h3; simp [hcd] at h3 ⊢; exact h3
        · exact .inl ⟨p, by simp [h2], h3⟩
      · right; right
        simp only
        split
        · rename_i hcd; subst hcd; simp [h2]
        · exact h2
  | wait A B u e =>
    rcases h with h | ⟨h, h2⟩
    · obtain ⟨v, hv⟩ := h (.sending u []) (by rw [e]; simp); simp at hv
    · refine .inr ⟨by rw [e] at h; simp at h ⊢; exact h, ?_⟩
      rw [e] at h2
      rcases h2 with h2 | ⟨p, h2, h3⟩ | h2
      · left; simpa using h2
      · right; left
        refine ⟨p, ?_, h3⟩
        simp only [List.mem_append, List.mem_cons, Cmd.sending.injEq] at h2
        rcases h2 with h2 | ⟨e1, e2⟩ | h2
        · simp [h2]
        · rw [e2] at h3; simp at h3
        · simp [h2]
      · exact .inr (.inr h2)
  | reply A B e =>
    rcases h with h | ⟨h, h2⟩
    · obtain ⟨v, hv⟩ := h .sent (by rw [e]; simp); simp at hv
    · refine .inr ⟨by rw [e] at h; simp at h ⊢; exact h, ?_⟩
      rw [e] at h2
      rcases h2 with h2 | ⟨p, h2, h3⟩ | h2
      · left; simpa using h2
      · right; left; exact ⟨p, by simpa using h2, h3⟩
      · exact .inr (.inr h2)

/-- C103, all schedules of accepted commands: when all have replied, every player has at some time been told the volume
that is stored. -/
theorem C103_told (n : Nat) (v0 : UInt64) (vs : List UInt64) (hne : vs ≠ []) (s : St)
    (h : Star (Step n) (St.init v0 (vs.map some)) s) (hf : Finished s) (c : Nat) (hc : c < n) : s.stored ∈ s.inbox c := by
  have hinv : Owed c s ∧ s.cmds ≠ [] := by
    refine MS.Sender.Star.inv (P := fun s => Owed c s ∧ s.cmds ≠ []) (fun a b ⟨h1, h2⟩ hs => ⟨owed_step hc a b h1 hs, ?_⟩) h ?_
    · cases hs <;> simp
    · refine ⟨.inl ?_, by simpa [St.init] using hne⟩
      simp [St.init]
  obtain ⟨hinv, hne⟩ := hinv
  rcases hinv with h1 | ⟨_, h1 | ⟨p, h1, _⟩ | h1⟩
  · obtain ⟨x, xs, e⟩ := List.exists_cons_of_ne_nil hne
    obtain ⟨v, hv⟩ := h1 x (by simp [e])
    rcases hf x (by simp [e]) with ⟨u, hu⟩ | hu <;> rw [hv] at hu <;> simp at hu
  · rcases hf _ h1 with ⟨u, hu⟩ | hu <;> simp at hu
  · rcases hf _ h1 with ⟨u, hu⟩ | hu <;> simp at hu
  · exact h1

/-! ## One at a time -/

def CalmInv (n : Nat) (s : St) : Prop :=
  Cmd.parsed none ∉ s.cmds ∧
  ((∀ x ∈ s.cmds, ∃ v, x = .parsed (some v)) ∨
   ((∀ u p, Cmd.sending u p ∈ s.cmds → u = s.stored ∧ ∀ c < n, c ∉ p → lastTold s c = some u) ∧
    (s.cmds.countP underWay = 0 → ∀ c < n, lastTold s c = some s.stored)))

theorem calm_step {n : Nat} (a b : St) (h : CalmInv n a) (hs : OneAtATime n a b) : CalmInv n b := by
  obtain ⟨hs, hcount⟩ := hs
  obtain ⟨hp, h⟩ := h
  have none_of : ∀ {A : List Cmd}, A.countP underWay = 0 → ∀ u p, Cmd.sending u p ∉ A := by
    intro A hA u p hm
    have := (List.countP_eq_zero.1 hA) _ hm
    simp [underWay] at this
  cases hs with
  | assign A B v e =>
    rw [e] at hp
    refine ⟨by simp at hp ⊢; exact hp, .inr ⟨?_, ?_⟩⟩
    · intro u p hm
      simp only [List.countP_append, List.countP_cons] at hcount
      simp [underWay] at hcount
      exfalso
      have hA := none_of (A := A) (by omega) u p
      have hB := none_of (A := B) (by omega) u p
      simp [hA, hB] at hm
    · intro h0
      simp [List.countP_append, List.countP_cons, underWay] at h0
  | reject A B e => rw [e] at hp; simp at hp
  | build A B e =>
    rw [e] at hp
    refine ⟨by simp at hp ⊢; exact hp, .inr ⟨?_, ?_⟩⟩
    · intro u p hm
      simp only [List.countP_append, List.countP_cons] at hcount
      simp [underWay] at hcount
      have hA := none_of (A := A) (by omega) u p
      have hB := none_of (A := B) (by omega) u p
      simp [hA, hB] at hm
      refine ⟨hm.1, fun c hc hcp => ?_⟩
      rw [hm.2] at hcp; simp at hcp; omega
    · intro h0
      simp [List.countP_append, List.countP_cons, underWay] at h0
  | write A B u P Q d e =>
    rw [e] at hp
    refine ⟨by simp at hp ⊢; exact hp, ?_⟩
    rcases h with h | ⟨h1, h2⟩
    · obtain ⟨v, hv⟩ := h (.sending u (P ++ d :: Q)) (by rw [e]; simp); simp at hv
    · right
      obtain ⟨hu, hl⟩ := h1 u (P ++ d :: Q) (by rw [e]; simp)
      refine ⟨?_, ?_⟩
      · intro w p hm
        simp only [List.countP_append, List.countP_cons] at hcount
        simp [underWay] at hcount
        have hA := none_of (A := A) (by omega) w p
        have hB := none_of (A := B) (by omega) w p
        simp [hA, hB] at hm
        obtain ⟨rfl, rfl⟩ := hm
        refine ⟨hu, fun c hc hcp => ?_⟩
        simp only [lastTold]
        by_cases hcd : c = d
        · simp [hcd]
        · rw [if_neg hcd]
          refine hl c hc ?_
          simp [hcd] at hcp ⊢; exact hcp
      · intro h0
        simp [List.countP_append, List.countP_cons, underWay] at h0
  | wait A B u e =>
    rw [e] at hp
    refine ⟨by simp at hp ⊢; exact hp, ?_⟩
    rcases h with h | ⟨h1, h2⟩
    · obtain ⟨v, hv⟩ := h (.sending u []) (by rw [e]; simp); simp at hv
    · right
      obtain ⟨hu, hl⟩ := h1 u [] (by rw [e]; simp)
      refine ⟨fun w p hm => h1 w p (by rw [e]; grind), fun _ c hc => ?_⟩
      rw [← hu]; exact hl c hc (by simp)
  | reply A B e =>
    rw [e] at hp
    refine ⟨by simp at hp ⊢; exact hp, ?_⟩
    rcases h with h | ⟨h1, h2⟩
    · obtain ⟨v, hv⟩ := h .sent (by rw [e]; simp); simp at hv
    · right
      refine ⟨fun w p hm => h1 w p (by rw [e]; simpa using hm), fun h0 c hc => h2 ?_ c hc⟩
      rw [e]
      simp only [List.countP_append, List.countP_cons] at h0 ⊢
      simp [underWay] at h0 ⊢; exact h0

/-- C103, where it holds: if never two accepted commands are under way at the same time, then whenever none is (and one
has been given), all players have last been told the volume that is stored. -/
theorem C103_one_at_a_time_partial (n : Nat) (v0 : UInt64) (vs : List UInt64) (hne : vs ≠ []) (s : St)
    (h : Star (OneAtATime n) (St.init v0 (vs.map some)) s) (hf : Finished s) (c : Nat) (hc : c < n) :
    lastTold s c = some s.stored := by
  have hinv : CalmInv n s ∧ s.cmds ≠ [] := by
    refine MS.Sender.Star.inv (P := fun s => CalmInv n s ∧ s.cmds ≠ []) (fun a b ⟨h1, h2⟩ hs => ⟨calm_step a b h1 hs, ?_⟩) h ?_
    · obtain ⟨hs, _⟩ := hs
      cases hs <;> simp
    · refine ⟨⟨by simp [St.init], .inl ?_⟩, by simpa [St.init] using hne⟩
      simp [St.init]
  obtain ⟨⟨_, hinv⟩, hne⟩ := hinv
  rcases hinv with h1 | ⟨_, h1⟩
  · obtain ⟨x, xs, e⟩ := List.exists_cons_of_ne_nil hne
    obtain ⟨v, hv⟩ := h1 x (by simp [e])
    rcases hf x (by simp [e]) with ⟨u, hu⟩ | hu <;> rw [hv] at hu <;> simp at hu
  · refine h1 (List.countP_eq_zero.2 fun x hx => ?_) c hc
    rcases hf x hx with ⟨u, hu⟩ | hu <;> rw [hu] <;> simp [underWay]

/-! ## Two at a time -/

/-- Writing to all pending connections. -/
theorem write_all (n : Nat) (P : List Nat) : ∀ (A B : List Cmd) (u : UInt64) (v : UInt64) (f : Nat → List UInt64), P.Nodup →
    Star (Step n) ⟨v, f, A ++ .sending u P :: B⟩
      ⟨v, fun x => if x ∈ P then f x ++ [u] else f x, A ++ .sending u [] :: B⟩ := by
  induction P with
  | nil => intro A B u v f _; simp; exact .refl _
  | cons c P ih =>
    intro A B u v f hP
    rw [List.nodup_cons] at hP
    refine star_trans (.tail (.refl _) (Step.write _ A B u [] P c rfl)) ?_
    have := ih A B u v (fun x => if x = c then f c ++ [u] else f x) hP.2
    simp only [List.nil_append]
    refine cast ?_ this
    congr 2
    funext x
    by_cases h1 : x = c
    · subst h1; simp [hP.1]
    · by_cases h2 : x ∈ P <;> simp [h1, h2]

/-- C103 is false: two sessions set different volumes at the same time. In the end the server has stored the second one and
tells it to new clients, while all its players play at the first one. -/
theorem C103_stale (n : Nat) (v0 v w : UInt64) : ∃ s, Star (Step n) (St.init v0 [some v, some w]) s ∧ Finished s ∧
    s.stored = w ∧ ∀ c < n, lastTold s c = some v := by
  have h1 : Star (Step n) (St.init v0 [some v, some w]) ⟨v, fun _ => [], [.sending v (List.range n), .parsed (some w)]⟩ :=
    .tail (.tail (.refl _) (.assign _ [] [.parsed (some w)] v rfl)) (.build _ [] [.parsed (some w)] rfl)
  have h2 : Star (Step n) (St.init v0 [some v, some w])
      ⟨w, fun _ => [], [.sending v (List.range n), .sending w (List.range n)]⟩ :=
    .tail (.tail h1 (.assign _ [.sending v (List.range n)] [] w rfl)) (.build _ [.sending v (List.range n)] [] rfl)
  have h3 := star_trans h2 (write_all n (List.range n) [.sending v (List.range n)] [] w w _ List.nodup_range)
  have h4 := star_trans h3 (write_all n (List.range n) [] [.sending w []] v w _ List.nodup_range)
  have h5 := Star.tail (Star.tail h4 (.wait _ [] [.sending w []] v rfl)) (.wait _ [.sent] [] w rfl)
  have h6 := Star.tail (Star.tail h5 (.reply _ [] [.sent] rfl)) (.reply _ [.replied w] [] rfl)
  refine ⟨_, h6, ?_, rfl, ?_⟩
  · simp [Finished]
  · intro c hc; simp [lastTold, hc]

/-- C103 is false: with two players or more, two sessions that set different volumes at the same time can leave one
player at one volume and the others at the other. -/
theorem C103_disagree (n : Nat) (v0 v w : UInt64) : ∃ s, Star (Step (n + 2)) (St.init v0 [some v, some w]) s ∧ Finished s ∧
    lastTold s 0 = some w ∧ ∀ c < n + 1, lastTold s (c + 1) = some v := by
  have hr : List.range (n + 2) = 0 :: (List.range (n + 1)).map (· + 1) := List.range_succ_eq_map
  have h1 : Star (Step (n + 2)) (St.init v0 [some v, some w])
      ⟨v, fun _ => [], [.sending v (List.range (n + 2)), .parsed (some w)]⟩ :=
    .tail (.tail (.refl _) (.assign _ [] [.parsed (some w)] v rfl)) (.build _ [] [.parsed (some w)] rfl)
  have h2 : Star (Step (n + 2)) (St.init v0 [some v, some w])
      ⟨w, fun _ => [], [.sending v (List.range (n + 2)), .sending w (List.range (n + 2))]⟩ :=
    .tail (.tail h1 (.assign _ [.sending v (List.range (n + 2))] [] w rfl)) (.build _ [.sending v (List.range (n + 2))] [] rfl)
  have h2' := Star.tail h2 (.write _ [] [.sending w (List.range (n + 2))] v [] ((List.range (n + 1)).map (· + 1)) 0
    (by simp only [List.nil_append]; rw [hr]))
  have h3 := star_trans h2' (write_all (n + 2) (List.range (n + 2)) [.sending v ((List.range (n + 1)).map (· + 1))] [] w w _
    List.nodup_range)
  have hnd : ((List.range (n + 1)).map (· + 1)).Nodup := by
    have : (List.range (n + 2)).Nodup := List.nodup_range
    rw [hr, List.nodup_cons] at this; exact this.2
  have h4 := star_trans h3 (write_all (n + 2) ((List.range (n + 1)).map (· + 1)) [] [.sending w []] v w _ hnd)
  have h5 := Star.tail (Star.tail h4 (.wait _ [] [.sending w []] v rfl)) (.wait _ [.sent] [] w rfl)
  have h6 := Star.tail (Star.tail h5 (.reply _ [] [.sent] rfl)) (.reply _ [.replied w] [] rfl)
  refine ⟨_, h6, ?_, ?_, ?_⟩
  · simp [Finished]
  · simp [lastTold]
  · intro c hc; simp [lastTold, hc]

/-- C103 is false for the reply, too: the session that asked for `v` is told that the volume is set to `w`. -/
theorem C103_reply_of_other (v0 v w : UInt64) : ∃ s, Star (Step 1) (St.init v0 [some v, some w]) s ∧
    s.cmds = [.replied w, .assigned] := by
  refine ⟨_, .tail (.tail (.tail (.tail (.tail (.tail (.refl _) (.assign _ [] [.parsed (some w)] v rfl))
    (.build _ [] [.parsed (some w)] rfl)) (.write _ [] [.parsed (some w)] v [] [] 0 rfl)) (.wait _ [] [.parsed (some w)] v rfl))
    (.assign _ [.sent] [] w rfl)) (.reply _ [] [.assigned] rfl), rfl⟩

/-- Non-vacuity: two commands one after the other, two players. -/
example : ∃ s, Star (OneAtATime 2) (St.init 9 ([1, 2].map some)) s ∧ Finished s ∧ s.stored = 2 ∧ s.inbox 0 = [1, 2] ∧
    s.inbox 1 = [1, 2] ∧ s.cmds = [.replied 1, .replied 2] := by
  refine ⟨_, .tail (.tail (.tail (.tail (.tail (.tail (.tail (.tail (.tail (.tail (.tail (.tail (.refl _)
    ⟨.assign _ [] [.parsed (some 2)] 1 rfl, by decide⟩) ⟨.build _ [] [.parsed (some 2)] rfl, by decide⟩)
    ⟨.write _ [] [.parsed (some 2)] 1 [0] [] 1 rfl, by decide⟩) ⟨.write _ [] [.parsed (some 2)] 1 [] [] 0 rfl, by decide⟩)
    ⟨.wait _ [] [.parsed (some 2)] 1 rfl, by decide⟩) ⟨.reply _ [] [.parsed (some 2)] rfl, by decide⟩)
    ⟨.assign _ [.replied 1] [] 2 rfl, by decide⟩) ⟨.build _ [.replied 1] [] rfl, by decide⟩)
    ⟨.write _ [.replied 1] [] 2 [] [1] 0 rfl, by decide⟩) ⟨.write _ [.replied 1] [] 2 [] [] 1 rfl, by decide⟩)
    ⟨.wait _ [.replied 1] [] 2 rfl, by decide⟩) ⟨.reply _ [.replied 1] [] rfl, by decide⟩, ?_⟩
  simp [Finished, St.init]

end MS.VolumeRace
