import Verif.Model.PlaylistRun
import Verif.Props.Fill
import Verif.Props.StreamLoop
/-!
# C125: the playlist sample by sample; C126: how soon commands take effect

The streaming goroutine, `Fill` with its two goroutines and the commands go on in any order, each channel operation being a step.
-/
namespace MS.PlaylistRun
open MS.StreamLoop

variable {β : Type}

/-- Specification: the stream: the samples pushed, and those of the block being pushed that are still to come. -/
def stream (s : St β) : List (Option (β × β)) := s.pl.out ++ s.push

/-- The playlist as `StreamLoop` has it, with the block complete. -/
def whole (s : St β) : StreamLoop.St (β × β) := { s.pl with out := stream s }

/-- Specification: the commands of a schedule, in order. -/
def command : Act → Option StreamLoop.Act
  | .jumpWrite p => some (.jumpWrite p)
  | .jumpToken => some .jumpToken
  | .setPlaying b => some (.setPlaying b)
  | .edit songs => some (.edit songs)
  | _ => none

/-- Specification: the same for a schedule of `StreamLoop`. -/
def commandOf : StreamLoop.Act → Option StreamLoop.Act
  | .loop => none
  | a => some a

/-- Specification: how many samples the running call of `Fill` asks for. -/
def asked (s : St β) : Nat := match s.chans.cur with | some (n, _, _) => n | none => 0

/-- What is left of the song being streamed. -/
def rest {α : Type} : Pc α → Option (List α)
  | .h1 rem => some rem
  | .h2 rem => some rem
  | .h3 rem => some rem
  | .body rem => some rem
  | .chk rem _ _ => some rem
  | _ => none

/-- Invariant. -/
structure Inv (nan : β) (cap : Nat) (s : St β) : Prop where
  idx : s.index = s.pl.out.length
  ch : Fill.Inv s.chans
  cap : s.chans.cap = cap
  smp : s.chans.samples = (s.pl.out ++ s.push.take (if s.chans.pend.isSome then 1 else 0)).map (value nan)
  pend : s.chans.pend.isSome = true → s.push ≠ []
  short : s.push.length ≤ bufSize ∨ (rest s.pl.pc = none ∧ ∀ x ∈ s.push, x = none)

theorem inv_init (nan : β) (cap : Nat) (songs : List String) : Inv nan cap (init cap songs) :=
  ⟨rfl, Fill.inv_init cap, rfl, by simp [init, Fill.init, StreamLoop.init], by simp [init, Fill.init], by simp [init]⟩

theorem nopend {nan : β} {cap : Nat} {s : St β} (h : Inv nan cap s) (hp : s.push = []) : s.chans.pend = none := by
  cases hq : s.chans.pend with
  | none => rfl
  | some x => exact absurd hp (h.pend (by simp [hq]))

theorem control_sim {nan : β} {cap : Nat} {c : Cfg (β × β)} {s s' : St β} (h : Inv nan cap s) (hp : s.push = [])
    (e : control c s = some s') :
    s'.chans = s.chans ∧ s'.index = s.index ∧ s'.pl.out = s.pl.out ∧
      (s'.push.length ≤ bufSize ∨ (rest s'.pl.pc = none ∧ ∀ x ∈ s'.push, x = none)) ∧ loopStep c (whole s) = some (whole s') := by
  have hi := h.idx
  obtain ⟨⟨songs, position, tokens, inflight, playing, playingLast, current, pc, out, news, pauses, blocks, cuts⟩, index, push,
    chans⟩ := s
  simp only at hp hi
  subst hp hi
  cases pc <;> simp only [control] at e <;> simp only [whole, stream, loopStep, List.append_nil]
  case top =>
    split at e
    · cases e; simp_all [rest]
    · rename_i hne
      simp only [hne, if_false]
      split at e <;> cases e <;> simp_all
  case store pos song => split at e <;> cases e <;> simp_all [rest]
  case opening song => split at e <;> cases e <;> simp_all
  case h1 rem => split at e <;> cases e <;> simp_all
  case h2 rem => cases e; simp
  case h3 rem => cases e; simp
  case body rem =>
    split at e
    · rename_i hpl
      cases e
      simp only [hpl, if_true]
      refine ⟨trivial, trivial, trivial, .inl ?_, trivial⟩
      simp; omega
    · rename_i hpl
      cases e
      simp [hpl]
  case chk rem n ok =>
    split at e
    · rename_i ht
      cases e; simp [ht]
    · rename_i ht
      simp only [ht, if_false]
      split at e
      · rename_i hq; cases e; simp only [if_pos hq]; simp
      · rename_i hq; cases e; simp only [if_neg hq]; simp
  case incR skip => cases e; simp
  case incW skip v => cases e; simp
  case brk => cases e; simp [rest]
  case crashed => cases e

theorem fillStep_const {s s' : Fill.St β} {a : Fill.Act β} (e : Fill.step s a = some s') :
    s'.cap = s.cap := by
  cases a <;> simp only [Fill.step] at e <;> grind

/-- Steps of the reading side touch neither what is pushed nor what is half pushed. -/
theorem fillStep_read {s s' : Fill.St β} {a : Fill.Act β} (e : Fill.step s a = some s')
    (ha : (∃ n, a = .fill n) ∨ a = .readLow ∨ a = .readHigh ∨ a = .ret) : s'.samples = s.samples ∧ s'.pend = s.pend := by
  rcases ha with ⟨n, rfl⟩ | rfl | rfl | rfl <;> simp only [Fill.step] at e <;> grind

theorem push_sim {nan : β} {cap : Nat} {s s' : St β} {x : Option (β × β)} {xs : List (Option (β × β))} (h : Inv nan cap s)
    (hp : s.push = x :: xs) (e : pushNext nan s x xs = some s') : Inv nan cap s' ∧ whole s' = whole s := by
  have hshort : xs.length ≤ bufSize ∨ (rest s.pl.pc = none ∧ ∀ y ∈ xs, y = none) := by
    rcases h.short with hs | ⟨hr, hs⟩
    · left; rw [hp] at hs; simp at hs; omega
    · right; exact ⟨hr, fun y hy => hs y (by rw [hp]; simp [hy])⟩
  unfold pushNext at e
  cases hq : s.chans.pend with
  | none =>
    simp only [hq, Option.map_eq_some_iff] at e
    obtain ⟨ch, e1, rfl⟩ := e
    have hch := Fill.inv_step h.ch e1
    have hcap := fillStep_const e1
    have key : ch.samples = s.chans.samples ++ [value nan x] ∧ ch.pend.isSome = true := by
      simp only [Fill.step, hq] at e1
      split at e1 <;> cases e1
      simp
    refine ⟨⟨h.idx, hch, hcap.trans h.cap, ?_, fun _ => by simp [hp], h.short⟩, rfl⟩
    have hs := h.smp
    simp only [hq, Option.isSome_none, Bool.false_eq_true, if_false, List.take_zero, List.append_nil] at hs
    simp [key.1, key.2, hp, hs]
  | some hi =>
    simp only [hq, Option.map_eq_some_iff] at e
    obtain ⟨ch, e1, rfl⟩ := e
    have hch := Fill.inv_step h.ch e1
    have hcap := fillStep_const e1
    have key : ch.samples = s.chans.samples ∧ ch.pend = none := by
      simp only [Fill.step, hq] at e1
      split at e1 <;> cases e1
      simp
    refine ⟨⟨by simp [h.idx], hch, hcap.trans h.cap, ?_, by simp [key.2], hshort⟩, ?_⟩
    · have hs := h.smp
      simp only [hq, Option.isSome_some, if_true, hp, List.take_succ_cons, List.take_zero] at hs
      simp [key.1, key.2, hs]
    · simp [whole, stream, hp]

theorem read_sim {nan : β} {cap : Nat} {s s' : St β} {a : Fill.Act β} (h : Inv nan cap s)
    (ha : (∃ n, a = .fill n) ∨ a = .readLow ∨ a = .readHigh ∨ a = .ret)
    (e : ((Fill.step s.chans a).map fun ch => { s with chans := ch }) = some s') : Inv nan cap s' ∧ whole s' = whole s := by
  simp only [Option.map_eq_some_iff] at e
  obtain ⟨ch, e1, rfl⟩ := e
  obtain ⟨k1, k2⟩ := fillStep_read e1 ha
  exact ⟨⟨h.idx, Fill.inv_step h.ch e1, (fillStep_const e1).trans h.cap, by simpa [k1, k2] using h.smp,
    by simpa [k2] using h.pend, h.short⟩, rfl⟩

theorem step_sim {nan : β} {cap : Nat} {c : Cfg (β × β)} {s s' : St β} {a : Act} (h : Inv nan cap s)
    (e : step nan c s a = some s') :
    Inv nan cap s' ∧ ((whole s' = whole s ∧ command a = none) ∨
      ∃ b, StreamLoop.step c (whole s) b = some (whole s') ∧ command a = commandOf b) := by
  unfold step at e
  split at e
  · cases e
  · rename_i hc
    have hc' : ∀ b, StreamLoop.step c (whole s) b = match b with
        | .loop => loopStep c (whole s)
        | .jumpWrite p => some { whole s with position := p, inflight := s.pl.inflight + 1 }
        | .jumpToken => if 0 < s.pl.inflight ∧ s.pl.tokens < 2 then
            some { whole s with inflight := s.pl.inflight - 1, tokens := s.pl.tokens + 1 } else none
        | .setPlaying b => some { whole s with playing := b }
        | .edit songs => some { whole s with songs := songs } := by
      intro b
      have : (whole s).pc = s.pl.pc := rfl
      unfold StreamLoop.step
      split
      · rename_i hx; exact absurd (this ▸ hx) hc
      · cases b <;> rfl
    cases a with
    | loop =>
      simp only at e
      split at e
      · rename_i hp
        obtain ⟨k1, k2, k3, k4, k5⟩ := control_sim h hp e
        refine ⟨⟨by rw [k2, k3]; exact h.idx, k1 ▸ h.ch, by rw [k1]; exact h.cap, ?_, ?_, k4⟩, .inr ⟨.loop, by rw [hc']; exact k5, rfl⟩⟩
        · rw [k1, nopend h hp, k3]
          have := h.smp
          simpa [nopend h hp] using this
        · rw [k1, nopend h hp]; simp
      · rename_i x xs hp
        obtain ⟨k1, k2⟩ := push_sim h hp e
        exact ⟨k1, .inl ⟨k2, rfl⟩⟩
    | jumpWrite p =>
      cases e
      exact ⟨⟨h.idx, h.ch, h.cap, h.smp, h.pend, h.short⟩, .inr ⟨.jumpWrite p, by rw [hc']; rfl, rfl⟩⟩
    | jumpToken =>
      simp only at e
      split at e
      · rename_i hx
        cases e
        exact ⟨⟨h.idx, h.ch, h.cap, h.smp, h.pend, h.short⟩, .inr ⟨.jumpToken, by rw [hc']; simp only [if_pos hx]; rfl, rfl⟩⟩
      · cases e
    | setPlaying b =>
      cases e
      exact ⟨⟨h.idx, h.ch, h.cap, h.smp, h.pend, h.short⟩, .inr ⟨.setPlaying b, by rw [hc']; rfl, rfl⟩⟩
    | edit l =>
      cases e
      exact ⟨⟨h.idx, h.ch, h.cap, h.smp, h.pend, h.short⟩, .inr ⟨.edit l, by rw [hc']; rfl, rfl⟩⟩
    | fill n => obtain ⟨k1, k2⟩ := read_sim h (.inl ⟨n, rfl⟩) e; exact ⟨k1, .inl ⟨k2, rfl⟩⟩
    | readLow => obtain ⟨k1, k2⟩ := read_sim h (by simp) e; exact ⟨k1, .inl ⟨k2, rfl⟩⟩
    | readHigh => obtain ⟨k1, k2⟩ := read_sim h (by simp) e; exact ⟨k1, .inl ⟨k2, rfl⟩⟩
    | ret => obtain ⟨k1, k2⟩ := read_sim h (by simp) e; exact ⟨k1, .inl ⟨k2, rfl⟩⟩

theorem run_sim {nan : β} {cap : Nat} {c : Cfg (β × β)} (as : List Act) {s s' : St β} (h : Inv nan cap s)
    (e : run nan c s as = some s') :
    Inv nan cap s' ∧ ∃ bs, StreamLoop.run c (whole s) bs = some (whole s') ∧ bs.filterMap commandOf = as.filterMap command := by
  induction as generalizing s with
  | nil => cases e; exact ⟨h, [], rfl, rfl⟩
  | cons a as ih =>
    simp only [run] at e
    split at e
    · rename_i t ht
      obtain ⟨h1, h2⟩ := step_sim h ht
      obtain ⟨i1, bs, i2, i3⟩ := ih h1 e
      refine ⟨i1, ?_⟩
      rcases h2 with ⟨h2, h3⟩ | ⟨b, h2, h3⟩
      · exact ⟨bs, h2 ▸ i2, by rw [List.filterMap_cons, h3]; exact i3⟩
      · exact ⟨b :: bs, by simp [StreamLoop.run, h2, i2], by simp only [List.filterMap_cons, h3, i3]⟩
    · cases e

theorem windows_more {S : List (β × β)} {cs : List (Nat × List β × List β)} (T : List (β × β)) {start : Nat}
    (hb : start + (cs.map (fun c => c.2.1.length)).sum ≤ S.length) (h : Fill.Windows S start cs) :
    Fill.Windows (S ++ T) start cs := by
  induction T generalizing S with
  | nil => simpa using h
  | cons x T ih =>
    have := ih (S := S ++ [x]) (by simp; omega) (Fill.windows_append hb h)
    simpa using this

theorem chunks_windows {nan : β} {cap : Nat} {s : St β} (h : Inv nan cap s) :
    Fill.Windows ((stream s).map (value nan)) 0 s.chans.chunks := by
  have hw := h.ch.win
  have hb : 0 + (s.chans.chunks.map (fun c => c.2.1.length)).sum ≤ s.chans.samples.length := by
    rw [Nat.zero_add, h.ch.sum]; exact h.ch.idx
  have := windows_more ((s.push.drop (if s.chans.pend.isSome then 1 else 0)).map (value nan)) hb hw
  rw [h.smp, ← List.map_append, List.append_assoc, List.take_append_drop] at this
  exact this

/-- C125, the stream: at every moment of every schedule, the samples pushed, with the rest of the block being pushed, the
announcements and everything else are those of the playlist that pushes blocks at once, given the same commands in the same order:
what C06 to C10, C12, C63, C64, C80, C97 and C105 say holds with commands coming in the middle of blocks too. -/
theorem C125_stream (nan : β) (c : Cfg (β × β)) (cap : Nat) (songs : List String) (as : List Act) (s : St β)
    (h : run nan c (init cap songs) as = some s) :
    ∃ bs, StreamLoop.run c (StreamLoop.init songs) bs = some { s.pl with out := stream s } ∧
      bs.filterMap commandOf = as.filterMap command :=
  (run_sim as (inv_init nan cap songs) h).2

/-- C125, the reader: the chunks `Fill` returns are the stream from its first sample on, cut into pieces that follow each other,
each with the index of its first sample, low and high values of the same samples. -/
theorem C125_chunks (nan : β) (c : Cfg (β × β)) (cap : Nat) (songs : List String) (as : List Act) (s : St β)
    (h : run nan c (init cap songs) as = some s) :
    Fill.Windows ((stream s).map (value nan)) 0 s.chans.chunks :=
  chunks_windows (run_sim as (inv_init nan cap songs) h).1

/-- How far the pusher can be ahead of the reader. -/
theorem lead {nan : β} {cap : Nat} {s : St β} (h : Inv nan cap s) :
    s.pl.out.length ≤ s.chans.readIdx + asked s + cap := by
  have h1 := congrArg List.length h.ch.low
  have h2 := h.ch.capL
  have h3 : (Fill.curLow s.chans).length ≤ asked s := by
    unfold Fill.curLow asked
    cases hc : s.chans.cur with
    | none => simp
    | some t => obtain ⟨n, lo, hi⟩ := t; exact (h.ch.got n lo hi hc).1
  have h4 : s.pl.out.length ≤ s.chans.samples.length := by rw [h.smp]; simp
  rw [h.cap] at h2
  simp at h1
  omega

/-- C125, the counter announced is the number of samples pushed, and the pusher is never more than the channels' capacity ahead of
what has been read or is being read. -/
theorem C125_lead (nan : β) (c : Cfg (β × β)) (cap : Nat) (songs : List String) (as : List Act) (s : St β)
    (h : run nan c (init cap songs) as = some s) :
    s.index = s.pl.out.length ∧ s.chans.readIdx ≤ s.pl.out.length + 1 ∧ s.pl.out.length ≤ s.chans.readIdx + asked s + cap := by
  have hi := (run_sim as (inv_init nan cap songs) h).1
  refine ⟨hi.idx, ?_, lead hi⟩
  have h1 := hi.ch.idx
  rw [hi.smp] at h1
  simp at h1
  split at h1 <;> omega

/-! ## C126 -/

theorem quiet_step {c : Cfg (β × β)} {s s' : StreamLoop.St (β × β)} {a : StreamLoop.Act} (hp : s.playing = false)
    (ha : a ≠ .setPlaying true) (e : StreamLoop.step c s a = some s') :
    s'.playing = false ∧ ∃ X, s'.out = s.out ++ X ∧ ∀ x ∈ X, x = none := by
  unfold StreamLoop.step at e
  split at e
  · cases e
  · cases a <;> simp only at e
    case loop =>
      unfold loopStep at e
      have hr : ∀ n, ∃ X, s.out ++ List.replicate n none = s.out ++ X ∧ ∀ x ∈ X, x = (none : Option (β × β)) :=
        fun n => ⟨_, rfl, fun x hx => (List.mem_replicate.mp hx).2⟩
      have h0 : ∃ X, s.out = s.out ++ X ∧ ∀ x ∈ X, x = (none : Option (β × β)) := ⟨[], by simp, by simp⟩
      split at e
      · split at e
        · cases e; exact ⟨hp, hr _⟩
        · simp only at e
          split at e <;> cases e <;> exact ⟨hp, h0⟩
      · split at e <;> cases e
        · exact ⟨hp, hr _⟩
        · exact ⟨hp, h0⟩
      · split at e <;> cases e <;> exact ⟨hp, h0⟩
      · split at e <;> cases e <;> exact ⟨hp, h0⟩
      · cases e; exact ⟨hp, h0⟩
      · cases e; exact ⟨hp, h0⟩
      · rw [if_neg (by simp [hp])] at e
        cases e; exact ⟨hp, hr _⟩
      · split at e
        · cases e; exact ⟨hp, h0⟩
        · split at e <;> cases e <;> exact ⟨hp, h0⟩
      · cases e; exact ⟨hp, h0⟩
      · cases e; exact ⟨hp, h0⟩
      · cases e; exact ⟨hp, hr _⟩
      · cases e
    case jumpToken => split at e <;> cases e; exact ⟨hp, [], by simp, by simp⟩
    case setPlaying b =>
      cases e
      cases b
      · exact ⟨rfl, [], by simp, by simp⟩
      · exact absurd rfl ha
    all_goals cases e; exact ⟨hp, [], by simp, by simp⟩

theorem quiet_run {c : Cfg (β × β)} (bs : List StreamLoop.Act) {s s' : StreamLoop.St (β × β)} (hp : s.playing = false)
    (ha : .setPlaying true ∉ bs) (e : StreamLoop.run c s bs = some s') : ∃ X, s'.out = s.out ++ X ∧ ∀ x ∈ X, x = none := by
  induction bs generalizing s with
  | nil => cases e; exact ⟨[], by simp, by simp⟩
  | cons b bs ih =>
    simp only [StreamLoop.run] at e
    split at e
    · rename_i t ht
      obtain ⟨k1, X, k2, k3⟩ := quiet_step hp (fun hx => ha (by simp [hx])) ht
      obtain ⟨Y, i1, i2⟩ := ih k1 (fun hx => ha (by simp [hx])) e
      refine ⟨X ++ Y, by rw [i1, k2, List.append_assoc], fun x hx => ?_⟩
      rcases List.mem_append.mp hx with hx | hx
      · exact k3 x hx
      · exact i2 x hx
    · cases e

theorem noResume {as : List Act} {bs : List StreamLoop.Act} {b : Bool} (h : bs.filterMap commandOf = as.filterMap command)
    (ha : .setPlaying b ∉ as) : .setPlaying b ∉ bs := by
  intro hb
  have : StreamLoop.Act.setPlaying b ∈ bs.filterMap commandOf := List.mem_filterMap.mpr ⟨_, hb, rfl⟩
  rw [h] at this
  obtain ⟨a, h1, h2⟩ := List.mem_filterMap.mp this
  cases a <;> simp [command] at h2
  subst h2
  exact ha h1

theorem noToken {as : List Act} {bs : List StreamLoop.Act} (h : bs.filterMap commandOf = as.filterMap command)
    (ha : .jumpToken ∉ as) : .jumpToken ∉ bs := by
  intro hb
  have : StreamLoop.Act.jumpToken ∈ bs.filterMap commandOf := List.mem_filterMap.mpr ⟨_, hb, rfl⟩
  rw [h] at this
  obtain ⟨a, h1, h2⟩ := List.mem_filterMap.mp this
  cases a <;> simp [command] at h2
  exact ha h1

/-- Value `j` of a chunk. -/
theorem windows_get {S : List (β × β)} {start : Nat} {cs : List (Nat × List β × List β)} (h : Fill.Windows S start cs)
    {i : Nat} {lo hi : List β} (hm : (i, lo, hi) ∈ cs) {j : Nat} (hj : j < lo.length) :
    lo[j]? = (S.map Prod.fst)[i + j]? ∧ hi[j]? = (S.map Prod.snd)[i + j]? := by
  induction cs generalizing start with
  | nil => cases hm
  | cons c cs ih =>
    obtain ⟨k, l, r⟩ := c
    obtain ⟨h1, h2, h3, h4, h5⟩ := h
    rcases List.mem_cons.mp hm with hm | hm
    · cases hm
      subst h1
      constructor
      · rw [h3]; simp [hj, List.getElem?_drop]
      · rw [h4]; simp [hj, List.getElem?_drop]
    · exact ih h5 hm

theorem stream_after {nan : β} {cap : Nat} {s : St β} (h : Inv nan cap s) {k : Nat}
    (hk : s.chans.readIdx + asked s + cap + bufSize ≤ k) (hk' : k < (stream s).length) : (stream s)[k]? = some none := by
  have hl := lead h
  unfold stream at hk' ⊢
  rw [List.getElem?_append_right (by omega)]
  simp at hk'
  rcases h.short with hs | ⟨_, hs⟩
  · omega
  · rw [List.getElem?_eq_getElem (by omega)]
    exact congrArg some (hs _ (List.getElem_mem _))

/-- C126, pausing: take any moment at which the playlist is paused and stays so. Beyond the samples already read or being read
then, at most the channels' capacity and one block are still music: every value behind that in any chunk `Fill` ever returns is
silence. -/
theorem C126_pause (nan : β) (c : Cfg (β × β)) (cap : Nat) (songs : List String) (as as' : List Act) (s s' : St β)
    (h : run nan c (init cap songs) as = some s) (hp : s.pl.playing = false) (h' : run nan c s as' = some s')
    (hr : .setPlaying true ∉ as') (i : Nat) (lo hi : List β) (hm : (i, lo, hi) ∈ s'.chans.chunks) (j : Nat) (hj : j < lo.length)
    (hij : s.chans.readIdx + asked s + cap + 512 ≤ i + j) : lo[j]? = some nan ∧ hi[j]? = some nan := by
  have h1 := (run_sim as (inv_init nan cap songs) h).1
  obtain ⟨h2, bs, h3, h4⟩ := run_sim as' h1 h'
  obtain ⟨X, h5, h6⟩ := quiet_run bs (s := whole s) hp (noResume h4 hr) h3
  obtain ⟨g1, g2⟩ := windows_get (chunks_windows h2) hm hj
  have hlt : i + j < (stream s').length := by
    have : (lo[j]?).isSome := by simp [hj]
    rw [g1] at this
    simpa using this
  have hs : (stream s')[i + j]? = some none := by
    have h5' : stream s' = stream s ++ X := h5
    rw [h5'] at hlt ⊢
    by_cases hc : i + j < (stream s).length
    · rw [List.getElem?_append_left hc]
      exact stream_after h1 hij hc
    · rw [List.getElem?_append_right (by omega)]
      simp at hlt
      rw [List.getElem?_eq_getElem (by omega)]
      exact congrArg some (h6 _ (List.getElem_mem _))
  rw [g1, g2]
  simp [hs, value]

/-- While playing, with no jump: the song goes on from where it is. `pre` has been streamed since. -/
def Goes (rem0 : List (β × β)) (out0 : List (Option (β × β))) (s : StreamLoop.St (β × β)) : Prop :=
  s.playing = true ∧ s.tokens = 0 ∧
  ((∃ pre rem, rest s.pc = some rem ∧ rem0 = pre ++ rem ∧ s.out = out0 ++ pre.map some ∧
      ∀ r n ok, s.pc = .chk r n ok → (ok = false ∨ n < bufSize → r = [])) ∨
    out0 ++ rem0.map some <+: s.out)

theorem goes_step {c : Cfg (β × β)} {rem0 : List (β × β)} {out0 : List (Option (β × β))} {s s' : StreamLoop.St (β × β)}
    {a : StreamLoop.Act} (hg : Goes rem0 out0 s) (ha : a ≠ .setPlaying false ∧ a ≠ .jumpToken)
    (e : StreamLoop.step c s a = some s') : Goes rem0 out0 s' := by
  obtain ⟨hp, ht, hg⟩ := hg
  unfold StreamLoop.step at e
  split at e
  · cases e
  · cases a <;> simp only at e
    case loop =>
      have more : ∀ X, out0 ++ rem0.map some <+: s.out → out0 ++ rem0.map some <+: s.out ++ X :=
        fun X h => h.trans (List.prefix_append _ _)
      unfold loopStep at e
      rcases hg with ⟨pre, rem, g1, g2, g3, g4⟩ | hg
      · split at e <;> rename_i hpc <;> rw [hpc] at g1 <;> simp only [rest, Option.some.injEq, reduceCtorEq] at g1
        · split at e <;> cases e <;>
            exact ⟨hp, ht, .inl ⟨pre, rem, by simp [rest, g1], g2, g3, by simp⟩⟩
        · cases e; exact ⟨hp, ht, .inl ⟨pre, rem, by simp [rest, g1], g2, g3, by simp⟩⟩
        · cases e; exact ⟨hp, ht, .inl ⟨pre, rem, by simp [rest, g1], g2, g3, by simp⟩⟩
        · subst g1
          rw [if_pos hp] at e
          cases e
          rename_i rem
          refine ⟨hp, ht, .inl ⟨pre ++ rem.take (min bufSize rem.length), rem.drop (min bufSize rem.length), rfl, ?_, ?_, ?_⟩⟩
          · rw [List.append_assoc, List.take_append_drop]; exact g2
          · simp [g3]
          · intro r n ok hr
            simp only [Pc.chk.injEq] at hr
            obtain ⟨rfl, rfl, rfl⟩ := hr
            intro hh
            simp only [decide_eq_false_iff_not] at hh
            rw [List.drop_eq_nil_iff]
            have : bufSize = 512 := rfl
            omega
        · subst g1
          rw [if_neg (by omega)] at e
          split at e
          · rename_i hx
            have := g4 _ _ _ hpc hx
            subst this
            cases e
            refine ⟨hp, ht, .inr ?_⟩
            simp only [List.append_nil] at g2
            rw [g2, g3]
            exact List.prefix_refl _
          · cases e
            exact ⟨hp, ht, .inl ⟨pre, _, rfl, g2, g3, by simp⟩⟩
      · split at e
        · split at e
          · cases e; exact ⟨hp, ht, .inr (more _ hg)⟩
          · simp only at e
            split at e <;> cases e <;> exact ⟨hp, ht, .inr hg⟩
        · split at e <;> cases e
          · exact ⟨hp, ht, .inr (more _ hg)⟩
          · exact ⟨hp, ht, .inr hg⟩
        · split at e <;> cases e <;> exact ⟨hp, ht, .inr hg⟩
        · split at e <;> cases e <;> exact ⟨hp, ht, .inr hg⟩
        · cases e; exact ⟨hp, ht, .inr hg⟩
        · cases e; exact ⟨hp, ht, .inr hg⟩
        · split at e <;> cases e <;> exact ⟨hp, ht, .inr (more _ hg)⟩
        · rw [if_neg (by omega)] at e
          split at e <;> cases e <;> exact ⟨hp, ht, .inr hg⟩
        · cases e; exact ⟨hp, ht, .inr hg⟩
        · cases e; exact ⟨hp, ht, .inr hg⟩
        · cases e; exact ⟨hp, ht, .inr (more _ hg)⟩
        · cases e
    case jumpToken => exact absurd rfl ha.2
    case setPlaying b =>
      cases e
      cases b
      · exact absurd rfl ha.1
      · exact ⟨rfl, ht, hg⟩
    all_goals cases e; exact ⟨hp, ht, hg⟩

theorem outInv_whole {nan : β} {cap : Nat} {c : Cfg (β × β)} {songs : List String} {as : List Act} {s : St β}
    (h : run nan c (init cap songs) as = some s) : OutInv c (whole s) := by
  obtain ⟨bs, hb, _⟩ := C125_stream nan c cap songs as s h
  exact run_induct (ok := fun _ => True) (fun _ _ _ _ hi hs => outInv_step hi hs) (by simp) (outInv_init c songs) hb

/-- The song being streamed is the last one announced, and `rest` is what follows of it. -/
theorem current_rest {nan : β} {cap : Nat} {c : Cfg (β × β)} {songs : List String} {as : List Act} {s : St β}
    (h : run nan c (init cap songs) as = some s) {rem : List (β × β)} (hr : rest s.pl.pc = some rem) :
    Current c.dec s.pl.news (stream s) rem ∧ ∀ r n ok, s.pl.pc = .chk r n ok → (ok = false ∨ n < bufSize → r = []) := by
  obtain ⟨_, hi⟩ := outInv_whole h
  have hw : (whole s).pc = s.pl.pc := rfl
  rw [hw] at hi
  cases hpc : s.pl.pc <;> rw [hpc] at hr hi <;> simp only [rest, Option.some.injEq, reduceCtorEq] at hr <;> subst hr
  case chk r n ok =>
    refine ⟨hi.2.1, ?_⟩
    intro r' n' ok' e
    simp only [Pc.chk.injEq] at e
    obtain ⟨rfl, rfl, rfl⟩ := e
    exact hi.2.2.2
  all_goals exact ⟨hi.2.1, by simp⟩

theorem goes_run {c : Cfg (β × β)} {rem0 : List (β × β)} {out0 : List (Option (β × β))} {s s' : StreamLoop.St (β × β)}
    {bs : List StreamLoop.Act} (hg : Goes rem0 out0 s) (ha : .setPlaying false ∉ bs) (hb : .jumpToken ∉ bs)
    (e : StreamLoop.run c s bs = some s') : Goes rem0 out0 s' :=
  run_induct (ok := fun a => a ≠ .setPlaying false ∧ a ≠ .jumpToken) (fun _ _ _ ho hi hs => goes_step hi ho hs)
    (fun _ h => ⟨fun h' => ha (h' ▸ h), fun h' => hb (h' ▸ h)⟩) hg e

/-- How much of the stream has been begun, while a song is streamed. -/
theorem song_lead {nan : β} {cap : Nat} {s : St β} (h : Inv nan cap s) (hr : rest s.pl.pc ≠ none) :
    (stream s).length ≤ s.chans.readIdx + asked s + cap + 512 := by
  have := lead h
  have hb : bufSize = 512 := rfl
  rcases h.short with hs | ⟨hs, _⟩
  · simp [stream]; omega
  · exact absurd hs hr

/-- C126, resuming: take any moment in a song at which the playlist is playing, no jump is under way, and stays so. Beyond the
samples already read or being read, at most the channels' capacity and one block can be silence: then comes the song announced last,
from the first of its samples `l` that has not been streamed, sample by sample to its end. -/
theorem C126_resume (nan : β) (c : Cfg (β × β)) (cap : Nat) (songs : List String) (as as' : List Act) (s s' : St β)
    (h : run nan c (init cap songs) as = some s) (hs : rest s.pl.pc ≠ none) (hp : s.pl.playing = true) (ht : s.pl.tokens = 0)
    (h' : run nan c s as' = some s') (hr : .setPlaying false ∉ as') (hj : .jumpToken ∉ as') :
    ∃ k name len l, s.pl.news.getLast? = some (k, name, len) ∧ c.dec name = some l ∧
      (stream s).length ≤ s.chans.readIdx + asked s + cap + 512 ∧ Spec.audio ((stream s).drop k) <+: l ∧
      ∀ i x, l[(Spec.audio ((stream s).drop k)).length + i]? = some x → (stream s).length + i < (stream s').length →
        (stream s')[(stream s).length + i]? = some (some x) := by
  have h1 := (run_sim as (inv_init nan cap songs) h).1
  obtain ⟨h2, bs, h3, h4⟩ := run_sim as' h1 h'
  cases hrm : rest s.pl.pc with
  | none => exact absurd hrm hs
  | some rem =>
    obtain ⟨⟨k, name, len, l, c1, c2, c3⟩, hck⟩ := current_rest h hrm
    refine ⟨k, name, len, l, c1, c2, song_lead h1 hs, ⟨rem, c3⟩, ?_⟩
    have hg : Goes rem (stream s) (whole s) := ⟨hp, ht, .inl ⟨[], rem, hrm, rfl, by simp [whole], hck⟩⟩
    obtain ⟨_, _, hg'⟩ := goes_run hg (noResume h4 hr) (noToken h4 hj) h3
    intro i x hx hlt
    rw [← c3, List.getElem?_append_right (by omega), Nat.add_sub_cancel_left] at hx
    have hw : (whole s').out = stream s' := rfl
    rw [hw] at hg'
    rcases hg' with ⟨pre, rem', _, g2, g3, _⟩ | ⟨Y, hY⟩
    · rw [g3] at hlt ⊢
      simp at hlt
      rw [g2, List.getElem?_append_left hlt] at hx
      rw [List.getElem?_append_right (by omega), Nat.add_sub_cancel_left, List.getElem?_map, hx]
      rfl
    · rw [← hY, List.append_assoc]
      have hi : i < rem.length := by
        refine Classical.byContradiction fun hn => ?_
        rw [List.getElem?_eq_none (by omega)] at hx; cases hx
      rw [List.getElem?_append_right (by omega), Nat.add_sub_cancel_left, List.getElem?_append_left (by simpa using hi)]
      simp [hx]

/-- After a jump: before, inside and behind the last block of the song. -/
def Jumped (brk : Nat) (out0 : List (Option (β × β))) (news0 : List (Nat × String × Nat)) (s : StreamLoop.St (β × β)) : Prop :=
  (rest s.pc ≠ none ∧ (∀ r n ok, s.pc ≠ .chk r n ok) ∧ 0 < s.tokens ∧ s.out = out0 ∧ s.news = news0) ∨
  (∃ r n ok, s.pc = .chk r n ok ∧ 0 < s.tokens ∧ s.news = news0 ∧ ∃ B, B.length ≤ 512 ∧ s.out = out0 ++ B) ∨
  (∃ B Y, B.length ≤ 512 ∧ s.out = out0 ++ B ++ Y ∧
    ((s.pc = .brk ∧ Y = [] ∧ s.news = news0) ∨
      (List.replicate brk none <+: Y ∧ ((rest s.pc = none ∧ s.news = news0 ∧ ∀ y ∈ Y, y = none) ∨ news0.length < s.news.length))))

theorem jumped_step {c : Cfg (β × β)} {out0 : List (Option (β × β))} {news0 : List (Nat × String × Nat)}
    {s s' : StreamLoop.St (β × β)} {a : StreamLoop.Act} (hg : Jumped c.brk out0 news0 s)
    (e : StreamLoop.step c s a = some s') : Jumped c.brk out0 news0 s' := by
  by_cases ha : a = .loop
  · subst ha
    replace e : loopStep c s = some s' := by
      unfold StreamLoop.step at e
      split at e
      · cases e
      · exact e
    have more : ∀ Y X : List (Option (β × β)), List.replicate c.brk none <+: Y → List.replicate c.brk none <+: Y ++ X :=
      fun Y X h => h.trans (List.prefix_append _ _)
    have quiet : ∀ (Y : List (Option (β × β))) n, (∀ y ∈ Y, y = none) → ∀ y ∈ Y ++ List.replicate n none, y = none := by
      intro Y n h y hy
      rcases List.mem_append.mp hy with hy | hy
      · exact h y hy
      · exact (List.mem_replicate.mp hy).2
    obtain ⟨songs, position, tokens, inflight, playing, playingLast, current, pc, out, news, pauses, blocks, cuts⟩ := s
    rcases hg with ⟨g1, g2, g3, g4, g5⟩ | ⟨r, n, ok, g1, g2, g3, B, g4, g5⟩ | ⟨B, Y, g1, g2, g3⟩
    · simp only at g1 g2 g3 g4 g5
      subst g4 g5
      cases pc <;> simp only [rest, ne_eq, not_true, reduceCtorEq, not_false_eq_true] at g1 <;> simp only [loopStep] at e
      case h1 rem => split at e <;> cases e <;> exact .inl ⟨by simp [rest], by simp, g3, rfl, rfl⟩
      case h2 rem => cases e; exact .inl ⟨by simp [rest], by simp, g3, rfl, rfl⟩
      case h3 rem => cases e; exact .inl ⟨by simp [rest], by simp, g3, rfl, rfl⟩
      case body rem =>
        split at e <;> cases e
        · refine .inr (.inl ⟨_, _, _, rfl, g3, rfl, _, ?_, rfl⟩)
          have : bufSize = 512 := rfl
          simp; omega
        · exact .inr (.inl ⟨_, _, _, rfl, g3, rfl, _, Nat.le_of_eq List.length_replicate, rfl⟩)
      case chk r n ok => exact absurd rfl (g2 r n ok)
    · simp only at g1 g2 g3 g5
      subst g1 g3
      simp only [loopStep, if_pos g2, Option.some.injEq] at e
      subst e
      exact .inr (.inr ⟨B, [], g4, by simpa using g5, .inl ⟨rfl, rfl, rfl⟩⟩)
    · simp only at g2 g3
      rcases g3 with ⟨rfl, rfl, rfl⟩ | ⟨g3, g4⟩
      · simp only [loopStep, Option.some.injEq] at e
        subst e
        refine .inr (.inr ⟨B, List.replicate c.brk none, g1, by simp [g2], .inr ⟨List.prefix_refl _, .inl ⟨rfl, rfl, ?_⟩⟩⟩)
        intro y hy; exact (List.mem_replicate.mp hy).2
      · rcases g4 with ⟨g4, rfl, g6⟩ | g4
        · cases pc <;> simp only [rest, reduceCtorEq] at g4 <;> simp only [loopStep] at e
          case top =>
            split at e
            · cases e
              exact .inr (.inr ⟨B, Y ++ List.replicate noSongNan none, g1, by simp only [g2, List.append_assoc],
                .inr ⟨more _ _ g3, .inl ⟨rfl, rfl, quiet _ _ g6⟩⟩⟩)
            · split at e <;> cases e <;> exact .inr (.inr ⟨B, Y, g1, g2, .inr ⟨g3, .inl ⟨rfl, rfl, g6⟩⟩⟩)
          case store pos song =>
            split at e <;> cases e
            · exact .inr (.inr ⟨B, Y ++ List.replicate noSongNan none, g1, by simp only [g2, List.append_assoc],
                .inr ⟨more _ _ g3, .inl ⟨rfl, rfl, quiet _ _ g6⟩⟩⟩)
            · exact .inr (.inr ⟨B, Y, g1, g2, .inr ⟨g3, .inl ⟨rfl, rfl, g6⟩⟩⟩)
          case opening song =>
            split at e <;> cases e
            · exact .inr (.inr ⟨B, Y, g1, g2, .inr ⟨g3, .inl ⟨rfl, rfl, g6⟩⟩⟩)
            · exact .inr (.inr ⟨B, Y, g1, g2, .inr ⟨g3, .inr (by simp)⟩⟩)
          case incR skip => cases e; exact .inr (.inr ⟨B, Y, g1, g2, .inr ⟨g3, .inl ⟨rfl, rfl, g6⟩⟩⟩)
          case incW skip v =>
            cases e
            exact .inr (.inr ⟨B, Y, g1, g2, .inr ⟨g3, .inl ⟨by cases skip <;> rfl, rfl, g6⟩⟩⟩)
          case brk =>
            cases e
            exact .inr (.inr ⟨B, Y ++ List.replicate c.brk none, g1, by simp only [g2, List.append_assoc],
              .inr ⟨more _ _ g3, .inl ⟨rfl, rfl, quiet _ _ g6⟩⟩⟩)
          case crashed => cases e
        · have hn : ∃ X, s'.out = out ++ X ∧ news.length ≤ s'.news.length := by
            cases pc <;> simp only [loopStep] at e
            case top =>
              split at e
              · cases e; exact ⟨_, rfl, Nat.le_refl _⟩
              · split at e <;> cases e <;> exact ⟨[], by simp, Nat.le_refl _⟩
            case store pos song =>
              split at e <;> cases e
              · exact ⟨_, rfl, Nat.le_refl _⟩
              · exact ⟨[], by simp, Nat.le_refl _⟩
            case opening song => split at e <;> cases e <;> exact ⟨[], by simp, by simp⟩
            case h1 rem => split at e <;> cases e <;> exact ⟨[], by simp, Nat.le_refl _⟩
            case body rem => split at e <;> cases e <;> exact ⟨_, rfl, Nat.le_refl _⟩
            case chk r n ok =>
              split at e
              · cases e; exact ⟨[], by simp, Nat.le_refl _⟩
              · split at e <;> cases e <;> exact ⟨[], by simp, Nat.le_refl _⟩
            case brk => cases e; exact ⟨_, rfl, Nat.le_refl _⟩
            case crashed => cases e
            all_goals cases e; exact ⟨[], by simp, Nat.le_refl _⟩
          obtain ⟨X, x1, x2⟩ := hn
          exact .inr (.inr ⟨B, Y ++ X, g1, by simp only [x1, g2, List.append_assoc],
            .inr ⟨more _ _ g3, .inr (by omega)⟩⟩)
  · have hk : s'.pc = s.pc ∧ s'.out = s.out ∧ s'.news = s.news ∧ s.tokens ≤ s'.tokens := by
      unfold StreamLoop.step at e
      split at e
      · cases e
      · cases a <;> simp only at e
        case loop => exact absurd rfl ha
        case jumpToken => split at e <;> cases e; exact ⟨rfl, rfl, rfl, Nat.le_succ _⟩
        all_goals cases e; exact ⟨rfl, rfl, rfl, Nat.le_refl _⟩
    obtain ⟨k1, k2, k3, k4⟩ := hk
    unfold Jumped at hg ⊢
    rw [k1, k2, k3]
    rcases hg with ⟨g1, g2, g3, g4⟩ | ⟨r, n, ok, g1, g2, g3⟩ | hg
    · exact .inl ⟨g1, g2, by omega, g4⟩
    · exact .inr (.inl ⟨r, n, ok, g1, by omega, g3⟩)
    · exact .inr (.inr hg)

/-- C126, jumping: take any moment in a song at which a jump has been accepted. Beyond the samples already read or being read, at
most the channels' capacity and two blocks of that song still come: the stream is continued by at most 512 samples, then by the
break between songs, and has only silence until another song is announced. -/
theorem C126_jump (nan : β) (c : Cfg (β × β)) (cap : Nat) (songs : List String) (as as' : List Act) (s s' : St β)
    (h : run nan c (init cap songs) as = some s) (hs : rest s.pl.pc ≠ none) (ht : 0 < s.pl.tokens)
    (h' : run nan c s as' = some s') :
    (stream s).length ≤ s.chans.readIdx + asked s + cap + 512 ∧
    ∃ B Y, stream s' = stream s ++ B ++ Y ∧ B.length ≤ 512 ∧ (Y = [] ∨ List.replicate c.brk none <+: Y) ∧
      (s'.pl.news.length ≤ s.pl.news.length → ∀ y ∈ Y, y = none) := by
  have h1 := (run_sim as (inv_init nan cap songs) h).1
  obtain ⟨h2, bs, h3, h4⟩ := run_sim as' h1 h'
  refine ⟨song_lead h1 hs, ?_⟩
  have hj : Jumped c.brk (stream s) s.pl.news (whole s) := by
    by_cases hc : ∃ r n ok, s.pl.pc = .chk r n ok
    · obtain ⟨r, n, ok, hc⟩ := hc
      exact .inr (.inl ⟨r, n, ok, hc, ht, rfl, [], by simp, by simp [whole]⟩)
    · exact .inl ⟨hs, fun r n ok hx => hc ⟨r, n, ok, hx⟩, ht, rfl, rfl⟩
  have hj' : Jumped c.brk (stream s) s.pl.news (whole s') :=
    run_induct (ok := fun _ => True) (fun _ _ _ _ hi hs => jumped_step hi hs) (by simp) hj h3
  rcases hj' with ⟨_, _, _, g4, _⟩ | ⟨_, _, _, _, _, _, B, g4, g5⟩ | ⟨B, Y, g1, g2, g3⟩
  · exact ⟨[], [], by rw [← show (whole s').out = stream s' from rfl, g4]; simp, by simp, by simp, by simp⟩
  · exact ⟨B, [], by rw [← show (whole s').out = stream s' from rfl, g5]; simp, g4, by simp, by simp⟩
  · refine ⟨B, Y, g2, g1, ?_, ?_⟩
    · rcases g3 with ⟨_, rfl, _⟩ | ⟨g3, _⟩
      · exact .inl rfl
      · exact .inr g3
    · intro hn
      rcases g3 with ⟨_, rfl, _⟩ | ⟨_, ⟨_, _, g3⟩ | g3⟩
      · simp
      · exact g3
      · have : (whole s').news = s'.pl.news := rfl
        rw [this] at g3; omega

/-! ## Going on -/

theorem fill_snoc {s s' s'' : Fill.St β} {as : List (Fill.Act β)} {a : Fill.Act β} (h : Fill.run s as = some s')
    (h' : Fill.step s' a = some s'') : Fill.run s (as ++ [a]) = some s'' := by
  induction as generalizing s with
  | nil => cases h; simp [Fill.run, h']
  | cons b as ih =>
    simp only [Fill.run, List.cons_append] at h ⊢
    split at h
    · exact ih h
    · cases h

theorem control_total {c : Cfg (β × β)} {s : St β} (h : s.pl.pc ≠ .crashed) : (control c s).isSome := by
  unfold control
  split
  · split
    · rfl
    · simp only; split <;> rfl
  · split <;> rfl
  · split <;> rfl
  · split <;> rfl
  · rfl
  · rfl
  · split <;> rfl
  · split
    · rfl
    · split <;> rfl
  · rfl
  · rfl
  · rfl
  · rename_i hc; exact absurd hc h

theorem control_chans {c : Cfg (β × β)} {s s' : St β} (e : control c s = some s') : s'.chans = s.chans := by
  unfold control at e
  split at e
  · split at e
    · cases e; rfl
    · simp only at e; split at e <;> cases e <;> rfl
  · split at e <;> cases e <;> rfl
  · split at e <;> cases e <;> rfl
  · split at e <;> cases e <;> rfl
  · cases e; rfl
  · cases e; rfl
  · split at e <;> cases e <;> rfl
  · split at e
    · cases e; rfl
    · split at e <;> cases e <;> rfl
  · cases e; rfl
  · cases e; rfl
  · cases e; rfl
  · cases e

/-- The channels do what `Fill` and a pusher do to them. -/
theorem chans_step {nan : β} {c : Cfg (β × β)} {s s' : St β} {a : Act} (e : step nan c s a = some s') :
    s'.chans = s.chans ∨ ∃ b, Fill.step s.chans b = some s'.chans := by
  unfold step at e
  split at e
  · cases e
  · cases a <;> simp only at e
    case loop =>
      split at e
      · exact .inl (control_chans e)
      · unfold pushNext at e
        split at e <;> simp only [Option.map_eq_some_iff] at e <;> obtain ⟨ch, e1, rfl⟩ := e <;> exact .inr ⟨_, e1⟩
    case jumpToken => split at e <;> cases e; exact .inl rfl
    case jumpWrite p => cases e; exact .inl rfl
    case setPlaying b => cases e; exact .inl rfl
    case edit l => cases e; exact .inl rfl
    all_goals
      simp only [Option.map_eq_some_iff] at e
      obtain ⟨ch, e1, rfl⟩ := e
      exact .inr ⟨_, e1⟩

theorem chans_run {nan : β} {c : Cfg (β × β)} {cap : Nat} (as : List Act) {s s' : St β}
    (h : ∃ fs, Fill.run (Fill.init cap) fs = some s.chans) (e : run nan c s as = some s') :
    ∃ fs, Fill.run (Fill.init cap) fs = some s'.chans := by
  induction as generalizing s with
  | nil => cases e; exact h
  | cons a as ih =>
    simp only [run] at e
    split at e
    · rename_i t ht
      refine ih ?_ e
      obtain ⟨fs, hf⟩ := h
      rcases chans_step ht with hc | ⟨b, hb⟩
      · exact ⟨fs, hc ▸ hf⟩
      · exact ⟨fs ++ [b], fill_snoc hf hb⟩
    · cases e

/-- C125, no deadlock: as long as the process has not crashed and `Fill` is running, with room for a sample in the channels, the
streaming goroutine or one of the reading ones can go on, or `Fill` returns. -/
theorem C125_goes_on (nan : β) (c : Cfg (β × β)) (cap : Nat) (hcap : 1 ≤ cap) (songs : List String) (as : List Act) (s : St β)
    (h : run nan c (init cap songs) as = some s) (hc : s.pl.pc ≠ .crashed) (hf : s.chans.cur.isSome) :
    (step nan c s .loop).isSome ∨ (step nan c s .readLow).isSome ∨ (step nan c s .readHigh).isSome ∨
      (step nan c s .ret).isSome := by
  obtain ⟨fs, hr⟩ := chans_run as ⟨[], rfl⟩ h
  have hi := (run_sim as (inv_init nan cap songs) h).1
  have hst : ∀ a, step nan c s a = match a with
      | .loop => (match s.push with | [] => control c s | x :: xs => pushNext nan s x xs)
      | .jumpWrite p => some { s with pl := { s.pl with position := p, inflight := s.pl.inflight + 1 } }
      | .jumpToken =>
        if 0 < s.pl.inflight ∧ s.pl.tokens < 2 then
          some { s with pl := { s.pl with inflight := s.pl.inflight - 1, tokens := s.pl.tokens + 1 } }
        else none
      | .setPlaying b => some { s with pl := { s.pl with playing := b } }
      | .edit songs => some { s with pl := { s.pl with songs := songs } }
      | .fill n => (Fill.step s.chans (.fill n)).map fun ch => { s with chans := ch }
      | .readLow => (Fill.step s.chans .readLow).map fun ch => { s with chans := ch }
      | .readHigh => (Fill.step s.chans .readHigh).map fun ch => { s with chans := ch }
      | .ret => (Fill.step s.chans .ret).map fun ch => { s with chans := ch } := by
    intro a
    unfold step
    split
    · rename_i hx; exact absurd hx hc
    · rfl
  simp only [hst, Option.isSome_map]
  cases hp : s.push with
  | nil => exact .inl (control_total hc)
  | cons x xs =>
    simp only
    have := Fill.C11_no_deadlock cap hcap fs s.chans hr hf (value nan x).1 (value nan x).2
    rcases this with h1 | h1 | h1
    · left
      unfold pushNext
      cases hq : s.chans.pend with
      | none => simp [h1]
      | some y => simp [Fill.step, hq] at h1
    · left
      unfold pushNext
      cases hq : s.chans.pend with
      | none => simp [Fill.step, hq] at h1
      | some y => simp [h1]
    · exact .inr h1

/-! ## Cases -/

/-- A song of three samples. -/
def exCfg : Cfg (Nat × Nat) := { dec := fun x => if x = "a" then some [(1, 2), (3, 4), (5, 6)] else none, brk := 2 }

/-- The song is begun, playing; the playlist is paused in the middle of the block, between the two values of its second sample, and
`Fill` reads two samples meanwhile. -/
def exBegin : List Act :=
  [.setPlaying true, .loop, .loop, .loop, .loop, .loop, .loop, .loop, .loop, .setPlaying false, .loop, .fill 2, .readLow, .loop,
    .readHigh, .loop, .readLow, .readHigh, .ret]

theorem ex_begin : (run 0 exCfg (init 2 ["a"]) exBegin).map (fun s => (s.chans.chunks, s.index, s.pl.playing, s.push.length)) =
    some ([(0, [1, 3], [2, 4])], 3, false, 0) := by
  decide +kernel

/-- In the song, playing, nothing pushed yet: what `C126_resume` asks for. -/
def exResume : List Act := [.setPlaying true, .loop, .loop, .loop, .loop]

theorem ex_resume : (run 0 exCfg (init 2 ["a"]) exResume).map (fun s => (rest s.pl.pc, s.pl.playing, s.pl.tokens)) =
    some (some [(1, 2), (3, 4), (5, 6)], true, 0) := by
  decide +kernel

/-- With a jump accepted: what `C126_jump` asks for. -/
theorem ex_jump : (run 0 exCfg (init 2 ["a"]) (exResume ++ [.jumpWrite 0, .jumpToken])).map
    (fun s => (rest s.pl.pc, s.pl.tokens)) = some (some [(1, 2), (3, 4), (5, 6)], 1) := by
  decide +kernel

end MS.PlaylistRun
