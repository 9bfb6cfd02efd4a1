import Verif.Model.Concurrent
import Verif.Props.Commands

/-! # Properties of playlist commands given at the same time -/

namespace MS.Concurrent

open MS.Commands (insertAll)
open MS.Playlist (clip)

/-! ## The calls are those of the command -/

/-- The calls one after the other. -/
def runAll : List Call → List String → Res (List String)
  | [], pl => .ok pl
  | c :: cs, pl => (c.run pl).bind (runAll cs)

/-- Without other sessions the calls of `queue` do what the command does (`MS.Commands.queue`). -/
theorem queueCalls_alone (pos : Option Int) (ss : List String) : ∀ (i : Nat) (pl : List String),
    runAll (queueCalls pos i ss) pl = insertAll pos i ss pl := by
  induction ss with
  | nil => intro i pl; rfl
  | cons s ss ih =>
    intro i pl
    have : runAll (queueCalls pos (i + 1) ss) = insertAll pos (i + 1) ss := funext fun pl => ih _ pl
    cases pos <;> simp only [queueCalls, runAll, insertAll, Call.run, this]

/-! ## C76 -/

/-- A `queue` command: the position, if one was given, and the matching songs. -/
structure Queue where
  pos : Option Int
  songs : List String

/-- The server when the commands `qs` are given in as many sessions. -/
def start (pl : List String) (qs : List Queue) : St := ⟨pl, qs.map fun q => queueCalls q.pos 0 q.songs, false⟩

/-- The song a call of `queue` adds. -/
def Call.song : Call → Option String
  | .add s => some s
  | .insert s _ => some s
  | .remove _ => none

def adds (cs : List Call) : List String := cs.filterMap Call.song

theorem adds_queueCalls (pos : Option Int) (ss : List String) : ∀ i, adds (queueCalls pos i ss) = ss := by
  induction ss with
  | nil => intro i; rfl
  | cons s ss ih =>
    intro i
    have := ih (i + 1)
    unfold adds at this ⊢
    cases pos <;> simp [queueCalls, Call.song, this]

/-- `c` adds a song. -/
def Adding (c : Call) : Prop := c.song ≠ none

theorem adding_queueCalls (pos : Option Int) (ss : List String) : ∀ i, ∀ c ∈ queueCalls pos i ss, Adding c := by
  induction ss with
  | nil => intro i c hc; simp [queueCalls] at hc
  | cons s ss ih =>
    intro i c hc
    simp only [queueCalls, List.mem_cons] at hc
    rcases hc with h | h
    · subst h; cases pos <;> simp [Adding, Call.song]
    · exact ih _ c h

/-- What an adding call does: the song is put somewhere, the rest stays in order. -/
theorem run_adding (c : Call) (pl : List String) (h : Adding c) :
    ∃ s a b, c.song = some s ∧ pl = a ++ b ∧ c.run pl = .ok (a ++ s :: b) := by
  cases c with
  | add s => exact ⟨s, pl, [], rfl, by simp, by simp [Call.run, Playlist.addSong]⟩
  | insert s i =>
    refine ⟨s, pl.take (clip i pl.length), pl.drop (clip i pl.length), rfl, (List.take_append_drop _ _).symm, ?_⟩
    simp only [Call.run, Playlist.C05_insert]
  | remove i => simp [Adding, Call.song] at h

theorem flatten_set {α : Type} (ls : List (List α)) (k : Nat) (a : α) (r : List α) (h : ls[k]? = some (a :: r)) :
    ls.flatten.Perm (a :: (ls.set k r).flatten) := by
  induction ls generalizing k with
  | nil => simp at h
  | cons l ls ih =>
    cases k with
    | zero =>
      simp only [List.getElem?_cons_zero, Option.some.injEq] at h
      subst h
      simp
    | succ k =>
      simp only [List.getElem?_cons_succ] at h
      simp only [List.set_cons_succ, List.flatten_cons]
      exact ((ih k h).append_left l).trans List.perm_middle

theorem map_set_adds (ls : List (List Call)) (k : Nat) (r : List Call) :
    (ls.set k r).map adds = (ls.map adds).set k (adds r) := by
  induction ls generalizing k with
  | nil => rfl
  | cons l ls ih => cases k <;> simp [ih]

structure Inv (pl : List String) (qs : List Queue) (s : St) : Prop where
  ok : s.crashed = false
  len : s.sessions.length = qs.length
  adding : ∀ cs ∈ s.sessions, ∀ c ∈ cs, Adding c
  perm : (s.songs ++ (s.sessions.map adds).flatten).Perm (pl ++ (qs.map Queue.songs).flatten)
  /-- the songs of an appending session: those already there are in order, the others are still to be added -/
  order : ∀ (k : Nat) (q : Queue) (cs : List Call), qs[k]? = some q → q.pos = none → s.sessions[k]? = some cs →
    ∃ done rest, q.songs = done ++ rest ∧ cs = rest.map Call.add ∧ done.Sublist s.songs
  old : pl.Sublist s.songs

theorem queueCalls_none (ss : List String) : ∀ i, queueCalls none i ss = ss.map Call.add := by
  induction ss with
  | nil => intro i; rfl
  | cons s ss ih => intro i; simp [queueCalls, ih]

theorem inv_start (pl : List String) (qs : List Queue) : Inv pl qs (start pl qs) where
  ok := rfl
  len := by simp [start]
  adding := by
    intro cs hcs
    simp only [start, List.mem_map] at hcs
    obtain ⟨q, _, rfl⟩ := hcs
    exact adding_queueCalls _ _ _
  perm := by
    simp only [start, List.map_map]
    have : (adds ∘ fun q : Queue => queueCalls q.pos 0 q.songs) = Queue.songs := by
      funext q; simp [adds_queueCalls]
    rw [this]
  order := by
    intro k q cs hq hp hk
    simp only [start, List.getElem?_map, hq, Option.map_some, Option.some.injEq] at hk
    exact ⟨[], q.songs, rfl, by rw [← hk, hp, queueCalls_none], by simp⟩
  old := by simp [start]

theorem inv_step {pl : List String} {qs : List Queue} {s t : St} (hi : Inv pl qs s) (h : Step s t) : Inv pl qs t := by
  cases h with
  | panic k c rest hc hk h =>
    exfalso
    have hm : c :: rest ∈ s.sessions := List.mem_of_getElem? hk
    obtain ⟨x, a, b, _, _, h3⟩ := run_adding c s.songs (hi.adding _ hm c (by simp))
    rw [h] at h3; cases h3
  | call k c rest pl' hc hk h =>
    have hm : c :: rest ∈ s.sessions := List.mem_of_getElem? hk
    obtain ⟨x, a, b, h1, h2, h3⟩ := run_adding c s.songs (hi.adding _ hm c (by simp))
    rw [h] at h3
    injection h3 with h3
    have hsub : s.songs.Sublist pl' := by
      rw [h2, h3]
      exact (List.Sublist.refl a).append (List.sublist_cons_self x b)
    refine ⟨hc, by simp [hi.len], ?_, ?_, ?_, hi.old.trans hsub⟩
    · intro cs hcs
      simp only at hcs
      rcases List.mem_or_eq_of_mem_set hcs with h | h
      · exact hi.adding cs h
      · subst h
        intro d hd
        exact hi.adding _ hm d (by simp [hd])
    · refine List.Perm.trans ?_ hi.perm
      simp only [map_set_adds]
      have hk' : (s.sessions.map adds)[k]? = some (x :: adds rest) := by
        simp only [List.getElem?_map, hk, Option.map_some, adds, List.filterMap_cons, h1]
      have := flatten_set _ _ _ _ hk'
      refine List.Perm.trans ?_ (this.symm.append_left s.songs)
      rw [h3, h2]
      have p1 : (a ++ x :: b).Perm (x :: (a ++ b)) := List.perm_middle
      refine (p1.append_right _).trans ?_
      exact List.perm_middle.symm
    · intro j q cs hq hp hj
      simp only at hj
      by_cases hjk : j = k
      · subst hjk
        have hlt : j < s.sessions.length := by
          rcases Nat.lt_or_ge j s.sessions.length with h | h
          · exact h
          · rw [List.getElem?_eq_none h] at hk; cases hk
        rw [List.getElem?_set_self hlt] at hj
        injection hj with hj
        subst hj
        obtain ⟨dn, rs, e1, e2, e3⟩ := hi.order j q (c :: rest) hq hp hk
        cases rs with
        | nil => simp at e2
        | cons y ys =>
          simp only [List.map_cons, List.cons.injEq] at e2
          refine ⟨dn ++ [y], ys, by simp [e1], e2.2, ?_⟩
          have : pl' = s.songs ++ [y] := by
            rw [e2.1] at h
            simp only [Call.run, Playlist.addSong] at h
            injection h with h; exact h.symm
          rw [this]
          exact e3.append (List.Sublist.refl _)
      · rw [List.getElem?_set_ne (Ne.symm hjk)] at hj
        obtain ⟨dn, rs, e1, e2, e3⟩ := hi.order j q cs hq hp hj
        exact ⟨dn, rs, e1, e2, e3.trans hsub⟩

theorem inv_steps {pl : List String} {qs : List Queue} {s : St} (h : Steps (start pl qs) s) : Inv pl qs s := by
  generalize h0 : start pl qs = s0 at h
  induction h with
  | refl => subst h0; exact inv_start _ _
  | tail _ h ih => exact inv_step ih h

/-- C76, no song is lost or added twice, and none of the commands fails: when any number of `queue` commands given at the
same time have returned, the playlist holds its old songs and all the matches of all commands, each as often as it was
queued, and the old songs are still in their order. -/
theorem C76_nothing_lost (pl : List String) (qs : List Queue) (s : St) (h : Steps (start pl qs) s) :
    s.crashed = false ∧ pl.Sublist s.songs ∧
      (s.finished → s.songs.Perm (pl ++ (qs.map Queue.songs).flatten)) := by
  have hi := inv_steps h
  refine ⟨hi.ok, hi.old, fun hf => ?_⟩
  have : (s.sessions.map adds).flatten = [] := by
    rw [List.flatten_eq_nil_iff]
    intro l hl
    obtain ⟨cs, hcs, rfl⟩ := List.mem_map.1 hl
    rw [hf cs hcs]; rfl
  have hp := hi.perm
  rwa [this, List.append_nil] at hp

/-- C76, order, for commands without a position: their songs are in the playlist in listing order, whatever other `queue`
commands (with or without positions) run at the same time. -/
theorem C76_append_order_partial (pl : List String) (qs : List Queue) (s : St) (h : Steps (start pl qs) s)
    (hf : s.finished) (q : Queue) (hq : q ∈ qs) (hp : q.pos = none) : q.songs.Sublist s.songs := by
  have hi := inv_steps h
  obtain ⟨k, hk⟩ := List.getElem?_of_mem hq
  have hlt : k < s.sessions.length := by
    rw [hi.len]
    rcases Nat.lt_or_ge k qs.length with h | h
    · exact h
    · rw [List.getElem?_eq_none h] at hk; cases hk
  obtain ⟨dn, rs, e1, e2, e3⟩ := hi.order k q s.sessions[k] hk hp (List.getElem?_eq_getElem hlt)
  have := hf s.sessions[k] (List.getElem_mem hlt)
  rw [this] at e2
  have hr : rs = [] := by cases rs <;> simp at e2 ⊢
  rw [e1, hr, List.append_nil]
  exact e3

/-- Every command returns: as long as one has calls to make, it can make them (they never block on anything but the lock of a
call under way), and every call brings it closer. -/
theorem C76_progress (pl : List String) (qs : List Queue) (s : St) (h : Steps (start pl qs) s) :
    (¬ s.finished → ∃ t, Step s t) ∧
      ∀ t, Step s t → (t.sessions.map List.length).sum + 1 = (s.sessions.map List.length).sum := by
  have hi := inv_steps h
  constructor
  · intro hf
    have : ∃ cs ∈ s.sessions, cs ≠ [] := Classical.byContradiction fun hn =>
      hf fun cs hcs => Classical.byContradiction fun h => hn ⟨cs, hcs, h⟩
    obtain ⟨cs, hcs, hne⟩ := this
    obtain ⟨k, hk⟩ := List.getElem?_of_mem hcs
    cases cs with
    | nil => exact absurd rfl hne
    | cons c rest =>
      obtain ⟨x, a, b, _, _, h3⟩ := run_adding c s.songs (hi.adding _ hcs c (by simp))
      exact ⟨_, .call s k c rest _ hi.ok hk h3⟩
  · intro t ht
    cases ht with
    | panic k c rest hc hk h =>
      exfalso
      obtain ⟨x, a, b, _, _, h3⟩ := run_adding c s.songs (hi.adding _ (List.mem_of_getElem? hk) c (by simp))
      rw [h] at h3; cases h3
    | call k c rest pl' hc hk h =>
      have gen : ∀ (ls : List (List Call)) (k : Nat), ls[k]? = some (c :: rest) →
          ((ls.set k rest).map List.length).sum + 1 = (ls.map List.length).sum := by
        intro ls
        induction ls with
        | nil => intro k h; simp at h
        | cons l ls ih =>
          intro k h
          cases k with
          | zero => simp only [List.getElem?_cons_zero, Option.some.injEq] at h; subst h; simp; omega
          | succ k =>
            simp only [List.getElem?_cons_succ] at h
            have := ih k h
            simp only [List.set_cons_succ, List.map_cons, List.sum_cons]
            omega
      exact gen _ _ hk

/-- C76 is false for commands with a position: `queue` of a0, a1 at position 1, with `queue` of b at position 0 in another
session, can leave a1 before a0. -/
theorem C76_positions_reordered : ∃ s, Steps (start ["x", "y"] [⟨some 1, ["a0", "a1"]⟩, ⟨some 0, ["b"]⟩]) s ∧ s.finished ∧
    s.songs = ["b", "x", "a1", "a0", "y"] := by
  let s0 : St := start ["x", "y"] [⟨some 1, ["a0", "a1"]⟩, ⟨some 0, ["b"]⟩]
  let s1 : St := ⟨["x", "a0", "y"], [[.insert "a1" 2], [.insert "b" 0]], false⟩
  let s2 : St := ⟨["b", "x", "a0", "y"], [[.insert "a1" 2], []], false⟩
  let s3 : St := ⟨["b", "x", "a1", "a0", "y"], [[], []], false⟩
  have h1 : Step s0 s1 := .call s0 0 (.insert "a0" 1) [.insert "a1" 2] _ rfl (by decide) (by decide)
  have h2 : Step s1 s2 := .call s1 1 (.insert "b" 0) [] _ rfl rfl (by decide)
  have h3 : Step s2 s3 := .call s2 0 (.insert "a1" 2) [] _ rfl rfl (by decide)
  refine ⟨s3, ((Steps.refl _).tail h1 |>.tail h2).tail h3, ?_, rfl⟩
  intro cs hcs
  simp only [s3, List.mem_cons, List.not_mem_nil, or_false, or_self] at hcs
  exact hcs

/-- Two appending commands whose calls alternate: each keeps its order. -/
example : ∃ s, Steps (start ["x"] [⟨none, ["a", "b"]⟩, ⟨none, ["c"]⟩]) s ∧ s.finished ∧ s.songs = ["x", "a", "c", "b"] := by
  let s0 : St := start ["x"] [⟨none, ["a", "b"]⟩, ⟨none, ["c"]⟩]
  let s1 : St := ⟨["x", "a"], [[.add "b"], [.add "c"]], false⟩
  let s2 : St := ⟨["x", "a", "c"], [[.add "b"], []], false⟩
  let s3 : St := ⟨["x", "a", "c", "b"], [[], []], false⟩
  have h1 : Step s0 s1 := .call s0 0 (.add "a") [.add "b"] _ rfl rfl rfl
  have h2 : Step s1 s2 := .call s1 1 (.add "c") [] _ rfl rfl rfl
  have h3 : Step s2 s3 := .call s2 0 (.add "b") [] _ rfl rfl rfl
  refine ⟨s3, ((Steps.refl _).tail h1 |>.tail h2).tail h3, ?_, rfl⟩
  intro cs hcs
  simp only [s3, List.mem_cons, List.not_mem_nil, or_false, or_self] at hcs
  exact hcs

/-! ## C77 -/

/-- The server when `remove` is given for each of the positions `is`, and the queue commands `qs`, all at the same time. -/
def startWith (pl : List String) (is : List Int) (qs : List Queue) : St :=
  ⟨pl, is.map (fun i => [.remove i]) ++ qs.map fun q => queueCalls q.pos 0 q.songs, false⟩

def isRemove : Call → Bool
  | .remove _ => true
  | _ => false

/-- How many removals are still to come. -/
def pending (s : St) : Nat := (s.sessions.flatten.filter isRemove).length

structure Inv2 (n m : Nat) (s : St) : Prop where
  ok : s.crashed = false
  len : n + pending s ≤ s.songs.length + m
  idx : ∀ i, Call.remove i ∈ s.sessions.flatten → i + m ≤ n

theorem pending_set (s : St) (k : Nat) (c : Call) (rest : List Call) (hk : s.sessions[k]? = some (c :: rest)) :
    pending s = (if isRemove c then 1 else 0) + ((s.sessions.set k rest).flatten.filter isRemove).length := by
  have := ((flatten_set s.sessions k c rest hk).filter isRemove).length_eq
  unfold pending
  rw [this, List.filter_cons]
  split <;> simp <;> omega

theorem inv2_step {n m : Nat} {s t : St} (hi : Inv2 n m s) (h : Step s t) : Inv2 n m t := by
  have key : ∀ (k : Nat) (i : Int) (rest : List Call), s.sessions[k]? = some (Call.remove i :: rest) →
      i < s.songs.length ∧ 1 ≤ pending s := by
    intro k i rest hk
    have hp := pending_set s k _ rest hk
    simp only [isRemove, if_true] at hp
    have := hi.idx i ((flatten_set s.sessions k _ rest hk).mem_iff.2 (by simp))
    have := hi.len
    omega
  cases h with
  | panic k c rest hc hk h =>
    exfalso
    by_cases ha : Adding c
    · obtain ⟨x, a, b, _, _, h3⟩ := run_adding c s.songs ha
      rw [h] at h3; cases h3
    · cases c with
      | add x => simp [Adding, Call.song] at ha
      | insert x j => simp [Adding, Call.song] at ha
      | remove i =>
        have hk' := (key k i rest hk).1
        have : Playlist.removeSong s.songs i = .panic := by
          simp only [Call.run] at h
          cases hr : Playlist.removeSong s.songs i with
          | panic => rfl
          | ok v => rw [hr] at h; cases h
        have := (Playlist.C05_remove_panics_iff s.songs i).1 this
        omega
  | call k c rest pl' hc hk h =>
    have hp := pending_set s k c rest hk
    refine ⟨hc, ?_, fun i hm => hi.idx i ((flatten_set s.sessions k c rest hk).mem_iff.2 (List.mem_cons_of_mem _ hm))⟩
    have hlen := hi.len
    show n + ((s.sessions.set k rest).flatten.filter isRemove).length ≤ pl'.length + m
    by_cases ha : Adding c
    · obtain ⟨x, a, b, h1, h2, h3⟩ := run_adding c s.songs ha
      rw [h] at h3
      injection h3 with h3
      have : pl'.length = s.songs.length + 1 := by rw [h3, h2]; simp; omega
      omega
    · cases c with
      | add x => simp [Adding, Call.song] at ha
      | insert x j => simp [Adding, Call.song] at ha
      | remove i =>
        have hk' := key k i rest hk
        simp only [isRemove, if_true] at hp
        by_cases hne : s.songs = []
        · have h0 : s.songs.length = 0 := by simp [hne]
          omega
        · have h2 := (Playlist.C05_remove_partial s.songs i (Or.inr (by omega))).2 hne
          simp only at h2
          simp only [Call.run, h2, Res.map] at h
          injection h with h
          have hlt : clip i (s.songs.length - 1) < s.songs.length := by
            have := List.length_pos_iff.2 hne; unfold clip; omega
          have : pl'.length + 1 = s.songs.length := by
            rw [← h, List.length_append, List.length_take, List.length_drop]; omega
          omega

/-- C77, where it holds: any number `m` of `remove` commands at the same time as any `queue` commands never crash the
server if each position is at least `m` below the number of songs. -/
theorem C77_remove_safe_partial (pl : List String) (is : List Int) (qs : List Queue) (s : St)
    (h : Steps (startWith pl is qs) s) (hi : ∀ i ∈ is, i + is.length ≤ pl.length) : s.crashed = false := by
  have hq : ∀ c ∈ (qs.map fun q => queueCalls q.pos 0 q.songs).flatten, isRemove c = false := by
    intro c hc
    simp only [List.mem_flatten, List.mem_map] at hc
    obtain ⟨l, ⟨q, _, rfl⟩, hc⟩ := hc
    have := adding_queueCalls _ _ _ c hc
    cases c <;> simp [isRemove, Adding, Call.song] at this ⊢
  have hr : (is.map fun i => [Call.remove i]).flatten = is.map Call.remove := by
    clear hi h
    induction is with
    | nil => rfl
    | cons i is ih => simp [ih]
  have h0 : Inv2 pl.length is.length (startWith pl is qs) := by
    refine ⟨rfl, ?_, ?_⟩
    · have : pending (startWith pl is qs) = is.length := by
        unfold pending startWith
        simp only [List.flatten_append, List.filter_append, hr, List.length_append]
        have e1 : (qs.map fun q => queueCalls q.pos 0 q.songs).flatten.filter isRemove = [] :=
          List.filter_eq_nil_iff.2 (fun c hc => by simp [hq c hc])
        have e2 : (is.map Call.remove).filter isRemove = is.map Call.remove :=
          List.filter_eq_self.2 (by intro c hc; obtain ⟨i, _, rfl⟩ := List.mem_map.1 hc; rfl)
        rw [e1, e2]
        simp
      simp only [this]
      exact Nat.le_refl _
    · intro i hm
      simp only [startWith, List.flatten_append, List.mem_append, hr, List.mem_map] at hm
      rcases hm with ⟨j, hj, e⟩ | hm
      · cases e; exact hi _ hj
      · have := hq _ hm
        simp [isRemove] at this
  clear hq hr
  generalize startWith pl is qs = s0 at h h0
  have : Inv2 pl.length is.length s := by
    induction h with
    | refl => exact h0
    | tail _ h ih => exact inv2_step ih h
  exact this.ok

/-- C77 is false: on every playlist of at least two songs, two sessions that both remove the last song can crash the server,
although each of them names an existing position. -/
theorem C77_two_removals_crash (pl : List String) (h : 2 ≤ pl.length) :
    ∃ s, Steps (startWith pl [(pl.length : Int) - 1, (pl.length : Int) - 1] []) s ∧ s.crashed = true := by
  have hne : pl ≠ [] := by intro e; simp [e] at h
  have h2 := (Playlist.C05_remove_partial pl ((pl.length : Int) - 1) (Or.inr (by omega))).2 hne
  have hc : clip ((pl.length : Int) - 1) (pl.length - 1) = pl.length - 1 := by unfold clip; omega
  simp only [hc] at h2
  rw [List.drop_eq_nil_of_le (by omega), List.append_nil] at h2
  let s0 : St := startWith pl [(pl.length : Int) - 1, (pl.length : Int) - 1] []
  let s1 : St := ⟨pl.take (pl.length - 1), [[], [.remove ((pl.length : Int) - 1)]], false⟩
  have hs1 : Step s0 s1 := .call s0 0 (.remove ((pl.length : Int) - 1)) [] (pl.take (pl.length - 1)) rfl rfl
    (by show (Playlist.removeSong pl _).map Prod.snd = _; rw [h2]; rfl)
  have hs2 : Step s1 { s1 with crashed := true } := by
    refine .panic s1 1 (.remove ((pl.length : Int) - 1)) [] rfl rfl ?_
    show (Playlist.removeSong (pl.take (pl.length - 1)) _).map Prod.snd = _
    rw [(Playlist.C05_remove_panics_iff _ _).2]
    · rfl
    · refine ⟨?_, by simp; omega⟩
      intro e
      have : (pl.take (pl.length - 1)).length = 0 := by rw [e]; rfl
      simp at this
      omega
  exact ⟨_, ((Steps.refl s0).tail hs1).tail hs2, rfl⟩

/-- Three songs; two removals of the first two positions are safe. -/
example (s : St) (h : Steps (startWith ["a", "b", "c"] [0, 1] [⟨none, ["d"]⟩]) s) : s.crashed = false :=
  C77_remove_safe_partial _ _ _ s h (by simp)

end MS.Concurrent
