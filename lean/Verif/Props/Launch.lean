import Verif.Props.CommandLine
import Verif.Props.Startup
import Verif.Props.Display
import Verif.Spec.Launch
/-!
# Property C121: from the words of the command line to the running program
-/
namespace MS.Launch
open MS.Flags MS.CommandLine MS.Startup MS.CommandSpec MS.LaunchSpec

/-! ## Values have the types of their options -/

/-- the type of a value -/
def hasKind : Kind → Given → Prop
  | .text, .val (.str _) => True
  | .int, .val (.int n) => -2 ^ 63 ≤ n ∧ n < 2 ^ 63
  | .uint, .val (.int n) => 0 ≤ n ∧ n < 2 ^ 64
  | .dur, .val (.dur _) => True
  | .switch, .on _ => True
  | _, _ => False

theorem reads_kind {time : List Char → Option Int} {k : Kind} {s : List Char} {g : Given} (h : Reads time k s g) : hasKind k g := by
  cases h with
  | text => trivial
  | int _ h1 h2 => exact ⟨h1, h2⟩
  | uint _ h => unfold hasKind; omega
  | dur _ => trivial
  | switch _ => trivial

theorem all_kinds {time : List Char → Option Int} {t : Table} {words rest : List Word} {texts : List (List Char × Kind × List Char)}
    {opts : List (List Char × Given)} (h : Line t words texts rest) (ha : AllRead time texts opts) :
    ∀ o ∈ opts, ∃ k, Known t o.1 k ∧ hasKind k o.2 := by
  induction h generalizing opts with
  | done => cases ha; simp
  | plain _ => cases ha; simp
  | stop => cases ha; simp
  | separate _ hk _ _ ih =>
    cases ha with
    | cons hr ha =>
      intro o ho
      rcases List.mem_cons.1 ho with rfl | ho
      · exact ⟨_, hk, reads_kind hr⟩
      · exact ih ha o ho
  | joined _ hk _ ih =>
    cases ha with
    | cons hr ha =>
      intro o ho
      rcases List.mem_cons.1 ho with rfl | ho
      · exact ⟨_, hk, reads_kind hr⟩
      · exact ih ha o ho
  | bare _ hk _ ih =>
    cases ha with
    | cons hr ha =>
      intro o ho
      rcases List.mem_cons.1 ho with rfl | ho
      · exact ⟨_, hk, reads_kind hr⟩
      · exact ih ha o ho

theorem value_kind {t : Table} {words : List Word} {opts : List (List Char × Given)} (h : Starts parseDuration t words opts)
    (huniq : ∀ n k k', Known t n k → Known t n k' → k = k') {ns : List String} {k : Kind} (ho : (ns, k) ∈ t) {d : Val}
    (hd : hasKind k (.val d)) : hasKind k (.val (valueOf ns d opts)) := by
  obtain ⟨-, ⟨texts, rest, h1, h2, -⟩, -⟩ := h
  have hall := all_kinds h1 h2
  unfold valueOf
  cases hl : lastOf ns opts with
  | none => exact hd
  | some g =>
    have : hasKind k g := by
      unfold lastOf at hl
      obtain ⟨o, hlast, rfl⟩ := Option.map_eq_some_iff.1 hl
      have hm := List.mem_of_getLast? hlast
      rw [List.mem_filter] at hm
      obtain ⟨n, hn, he⟩ := List.any_eq_true.1 hm.2
      obtain ⟨k', hk', hg⟩ := hall o hm.1
      have hk : Known t o.1 k := ⟨(ns, k), ho, rfl, n, hn, (beq_iff_eq.1 he).symm⟩
      rw [huniq _ _ _ hk hk']
      exact hg
    cases g with
    | val v => exact this
    | on b => exact hd

theorem text_value {t : Table} {words : List Word} {opts : List (List Char × Given)} (h : Starts parseDuration t words opts)
    (huniq : ∀ n k k', Known t n k → Known t n k' → k = k') (ns : List String) (ho : (ns, .text) ∈ t) (d : List Char) :
    ∃ s, valueOf ns (.str d) opts = .str s := by
  have := value_kind h huniq ho (d := .str d) trivial
  cases hv : valueOf ns (.str d) opts with
  | str s => exact ⟨s, rfl⟩
  | int n => rw [hv] at this; exact this.elim
  | dur n => rw [hv] at this; exact this.elim

theorem int_value {t : Table} {words : List Word} {opts : List (List Char × Given)} (h : Starts parseDuration t words opts)
    (huniq : ∀ n k k', Known t n k → Known t n k' → k = k') (ns : List String) (ho : (ns, .int) ∈ t) (d : Int)
    (hd : -2 ^ 63 ≤ d ∧ d < 2 ^ 63) : ∃ n, valueOf ns (.int d) opts = .int n ∧ -2 ^ 63 ≤ n ∧ n < 2 ^ 63 := by
  have := value_kind h huniq ho (d := .int d) hd
  cases hv : valueOf ns (.int d) opts with
  | str s => rw [hv] at this; exact this.elim
  | int n => rw [hv] at this; exact ⟨n, rfl, this⟩
  | dur n => rw [hv] at this; exact this.elim

/-- **C121** Whenever the words start the server, every setting is in force with one value of the right type; whole numbers fit
into 64 bits. -/
theorem C121_settings {words : List Word} {opts : List (List Char × Given)} (h : Starts parseDuration serverTable words opts) :
    ∃ s, InForce opts s ∧ (∀ s', InForce opts s' → s' = s) ∧ (∀ n ∈ [s.port, s.sshPort, s.size, s.rate], -2 ^ 63 ≤ n ∧ n < 2 ^ 63) := by
  have hu := unique_of server_describes
  obtain ⟨a, ha⟩ := text_value h hu ["address", "addr", "a"] (by decide) "127.0.0.1".toList
  obtain ⟨p, hp, hp'⟩ := int_value h hu ["port", "p"] (by decide) 13333 (by decide)
  obtain ⟨d, hd⟩ := text_value h hu ["music-dir", "dir", "d"] (by decide) "audio".toList
  obtain ⟨sa, hsa⟩ := text_value h hu ["ssh-address", "ssh-addr", "sa"] (by decide) "127.0.0.1".toList
  obtain ⟨sp, hsp, hsp'⟩ := int_value h hu ["ssh-port", "sp"] (by decide) 13334 (by decide)
  obtain ⟨u, husers⟩ := text_value h hu ["users-file", "users", "u"] (by decide) "users.json".toList
  obtain ⟨k, hk⟩ := text_value h hu ["host-key", "key", "k"] (by decide) "id_rsa".toList
  obtain ⟨sz, hsz, hsz'⟩ := int_value h hu ["stream-chunk-size"] (by decide) 176400 (by decide)
  obtain ⟨r, hr, hr'⟩ := int_value h hu ["sample-rate"] (by decide) 44100 (by decide)
  refine ⟨⟨a, p, d, sa, sp, u, k, sz, r⟩, ⟨ha, hp, hd, hsa, hsp, husers, hk, hsz, hr⟩, ?_, ?_⟩
  · rintro ⟨a', p', d', sa', sp', u', k', sz', r'⟩ ⟨h1, h2, h3, h4, h5, h6, h7, h8, h9⟩
    rw [ha] at h1; rw [hp] at h2; rw [hd] at h3; rw [hsa] at h4; rw [hsp] at h5; rw [husers] at h6; rw [hk] at h7
    rw [hsz] at h8; rw [hr] at h9
    injection h1; injection h2; injection h3; injection h4; injection h5; injection h6; injection h7; injection h8; injection h9
    simp_all
  · intro n hn
    simp only [List.mem_cons, List.not_mem_nil, or_false] at hn
    rcases hn with rfl | rfl | rfl | rfl <;> assumption

/-! ## Numbers as texts -/

theorem decimal_digit {c : Char} (h : '0' ≤ c ∧ c ≤ '9') : Fmt.digit (c.toNat - 48) = c ∧ 48 ≤ c.toNat ∧ c.toNat - 48 < 10 := by
  have h1 : 48 ≤ c.toNat := UInt32.le_iff_toNat_le.1 h.1
  have h2 : c.toNat ≤ 57 := UInt32.le_iff_toNat_le.1 h.2
  refine ⟨?_, h1, by omega⟩
  apply Char.toNat_inj.1
  rw [Fmt.digit_toNat]
  omega

theorem decimal_unique : ∀ (k : Nat) (s : List Char) (n : Nat), s.length ≤ k → Decimal n s → s = Fmt.dec n := by
  intro k
  induction k with
  | zero =>
    intro s n hk h
    exact absurd (List.eq_nil_of_length_eq_zero (by omega)) h.2.2.1
  | succ k ih =>
    rintro s n hk ⟨h1, rfl, h3, h4⟩
    obtain ⟨t, c, rfl⟩ : ∃ t c, s = t ++ [c] := ⟨s.dropLast, s.getLast h3, (List.dropLast_concat_getLast h3).symm⟩
    have hc := decimal_digit (h1 c (by simp))
    rw [Fmt.value_snoc]
    by_cases ht : t = []
    · subst ht
      have : Fmt.value [] = 0 := rfl
      rw [this, Nat.mul_zero, Nat.zero_add, Fmt.dec, if_pos hc.2.2, hc.1]
      rfl
    · have hh : (t ++ [c]).head? = t.head? := by
        cases t with
        | nil => exact absurd rfl ht
        | cons a b => rfl
      have hnz : t.head? ≠ some '0' := by
        intro h
        have := h4 (by rw [hh]; exact h)
        have := congrArg List.length this
        simp at this
        exact ht this
      have htd : Decimal (Fmt.value t) t := ⟨fun d hd => h1 d (by simp [hd]), rfl, ht, fun h => absurd h hnz⟩
      have e := ih t (Fmt.value t) (by simp at hk; omega) htd
      have hpos : Fmt.value t ≠ 0 := by
        intro h0
        rw [h0] at e
        apply hnz
        rw [e, Fmt.dec]
        rfl
      rw [Fmt.dec, if_neg (by omega), show (10 * Fmt.value t + (c.toNat - 48)) / 10 = Fmt.value t by omega,
        show (10 * Fmt.value t + (c.toNat - 48)) % 10 = c.toNat - 48 by omega, ← e, hc.1]

theorem written_iff (n : Int) (s : List Char) : Written n s ↔ s = Commands.decInt n := by
  constructor
  · intro h
    cases h with
    | @nonneg m s h =>
      unfold Commands.decInt
      rw [if_neg (by omega), Int.natAbs_natCast]
      exact decimal_unique _ s m (Nat.le_refl _) h
    | @neg m s h0 h =>
      unfold Commands.decInt
      rw [if_pos (by omega), Int.natAbs_neg, Int.natAbs_natCast, decimal_unique _ s m (Nat.le_refl _) h]
  · rintro rfl
    unfold Commands.decInt
    have hd : Decimal n.natAbs (Fmt.dec n.natAbs) := Display.dec_plain n.natAbs
    by_cases hn : n < 0
    · rw [if_pos hn]
      have := Written.neg (n := n.natAbs) (by omega) hd
      rwa [show -(n.natAbs : Int) = n by omega] at this
    · rw [if_neg hn]
      have := Written.nonneg hd
      rwa [show (n.natAbs : Int) = n by omega] at this

theorem joined_iff (h : List Char) (p : Int) (l : List Char) : Joined h p l ↔ l = hostPort h p := by
  unfold Joined hostPort
  constructor
  · rintro ⟨q, hq, rfl⟩
    rw [(written_iff p q).1 hq, List.append_assoc]; rfl
  · rintro rfl
    exact ⟨_, (written_iff p _).2 rfl, by rw [List.append_assoc]; rfl⟩

/-! ## The server -/

theorem serverMain_eq (w : World) {words : List Word} {opts : List (List Char × Given)} {s : Settings}
    (h : Starts parseDuration serverTable words opts) (hs : InForce opts s) :
    serverMain w words = some (serverRun {
      rate := s.rate, size := s.size, musicDir := checkDir w s.dir, listen := startServer w (hostPort s.address s.port)
      users := w.users s.users, ssh := w.ssh (hostPort s.sshAddress s.sshPort) s.key }) := by
  unfold serverMain
  rw [(C119_server words _).2 ⟨opts, h, rfl⟩, hs.address, hs.port, hs.dir, hs.sshAddress, hs.sshPort, hs.users, hs.key, hs.size, hs.rate]
  rfl

/-- **C121** The server does something exactly if the words start it (C119 says when). -/
theorem C121_started (w : World) (words : List Word) :
    (serverMain w words).isSome ↔ ∃ opts, Starts parseDuration serverTable words opts := by
  unfold serverMain
  rw [Option.isSome_map, Option.isSome_iff_exists]
  constructor
  · rintro ⟨u, hu⟩
    obtain ⟨opts, h, _⟩ := (C119_server words u).1 hu
    exact ⟨opts, h⟩
  · rintro ⟨opts, h⟩
    exact ⟨_, (C119_server words _).2 ⟨opts, h, rfl⟩⟩

theorem bmod_range (x : Int) : -2 ^ 63 ≤ wrap64 x ∧ wrap64 x < 2 ^ 63 := by
  unfold wrap64
  constructor
  · have := Int.le_bmod (x := x) (m := 2 ^ 64) (by decide); omega
  · have := Int.bmod_lt (x := x) (m := 2 ^ 64) (by decide); omega

/-- when the chunk time is positive, for a positive rate -/
theorem chunk_pos {size rate t : Int} (hr : 0 < rate) (h : chunkTime size rate = some t) :
    0 < t ↔ rate ≤ (size * 1000000000).bmod (2 ^ 64) := by
  unfold chunkTime at h
  rw [if_neg (by omega)] at h
  injection h with h
  have hw : wrap64 (size * 1000000000) = (size * 1000000000).bmod (2 ^ 64) := rfl
  have hb := bmod_range (size * 1000000000)
  rw [hw] at h hb
  generalize (size * 1000000000).bmod (2 ^ 64) = b at *
  by_cases h0 : 0 ≤ b
  · have e : b.tdiv rate = b / rate := Int.tdiv_eq_ediv_of_nonneg h0
    have h1 : 0 ≤ b / rate := Int.ediv_nonneg h0 (by omega)
    have h2 : b / rate ≤ b := Int.ediv_le_self _ h0
    rw [e, Commands.wrap64_id (by omega) (by omega)] at h
    subst h
    rw [show (0 : Int) < b / rate ↔ 1 ≤ b / rate by omega, Int.le_ediv_iff_mul_le hr]
    omega
  · have e : b.tdiv rate = -((-b) / rate) := by
      rw [← Int.neg_neg b, Int.neg_tdiv, Int.tdiv_eq_ediv_of_nonneg (by omega), Int.neg_neg]
    have h1 : 0 ≤ (-b) / rate := Int.ediv_nonneg (by omega) (by omega)
    have h2 : (-b) / rate ≤ -b := Int.ediv_le_self _ (by omega)
    rw [e, Commands.wrap64_id (by omega) (by omega)] at h
    omega

theorem run_streaming (s : Startup.Server) : .streaming ∈ serverRun s ↔
    s.musicDir = none ∧ s.listen = none ∧ s.users = none ∧ Sensible s.size s.rate := by
  obtain ⟨rate, size, md, l, u, ssh⟩ := s
  unfold Sensible
  cases md with
  | some e => simp [serverRun]
  | none =>
    cases hc : chunkTime size rate with
    | none =>
      have : rate = 0 := by
        unfold chunkTime at hc
        split at hc
        · assumption
        · cases hc
      simp only [serverRun, hc]
      simp [this]
    | some t =>
      simp only [serverRun, hc]
      cases l with
      | some e => simp
      | none =>
        cases u with
        | some e => simp
        | none =>
          have hst : Ev.streaming ∉ startSSH ssh := by cases ssh <;> simp [startSSH]
          simp only [List.mem_cons, reduceCtorEq, List.mem_append, hst, false_or, true_and]
          unfold scheduleServer
          by_cases h1 : rate < 0
          · rw [if_pos h1]; simp; omega
          · rw [if_neg h1]
            have h0 : rate ≠ 0 := by
              rintro rfl
              simp [chunkTime] at hc
            have hp := chunk_pos (by omega : 0 < rate) hc
            by_cases h2 : t ≤ 0
            · rw [if_pos h2]; simp only [List.not_mem_nil, false_iff]; omega
            · rw [if_neg h2]
              by_cases h3 : size < 0
              · rw [if_pos h3]; simp only [List.mem_singleton, reduceCtorEq, true_iff, false_iff]; omega
              · rw [if_neg h3]; simp only [List.mem_singleton, reduceCtorEq, true_iff, false_iff]; omega

theorem run_panic (s : Startup.Server) : .panic ∈ serverRun s ↔
    s.musicDir = none ∧ (s.rate = 0 ∨ s.listen = none ∧ s.users = none ∧
      (s.rate < 0 ∨ s.size < 0 ∧ s.rate ≤ (s.size * 1000000000).bmod (2 ^ 64))) := by
  obtain ⟨rate, size, md, l, u, ssh⟩ := s
  cases md with
  | some e => simp [serverRun]
  | none =>
    cases hc : chunkTime size rate with
    | none =>
      have : rate = 0 := by
        unfold chunkTime at hc
        split at hc
        · assumption
        · cases hc
      simp only [serverRun, hc]
      simp [this]
    | some t =>
      have h0 : rate ≠ 0 := by
        rintro rfl
        simp [chunkTime] at hc
      simp only [serverRun, hc]
      cases l with
      | some e => simp [h0]
      | none =>
        cases u with
        | some e => simp [h0]
        | none =>
          have hst : Ev.panic ∉ startSSH ssh := by cases ssh <;> simp [startSSH]
          simp only [List.mem_cons, reduceCtorEq, List.mem_append, hst, false_or, true_and, h0]
          unfold scheduleServer
          by_cases h1 : rate < 0
          · rw [if_pos h1]; simp [h1]
          · rw [if_neg h1]
            have hp := chunk_pos (by omega : 0 < rate) hc
            by_cases h2 : t ≤ 0
            · rw [if_pos h2]; simp only [List.not_mem_nil, false_iff]; omega
            · rw [if_neg h2]
              by_cases h3 : size < 0
              · rw [if_pos h3]; simp only [List.mem_singleton, reduceCtorEq, true_iff, false_iff]; omega
              · rw [if_neg h3]; simp only [List.mem_singleton, reduceCtorEq, true_iff, false_iff]; omega

theorem run_control (s : Startup.Server) : .control ∈ serverRun s ↔
    s.musicDir = none ∧ s.rate ≠ 0 ∧ s.listen = none ∧ s.users = none ∧ s.ssh = none := by
  obtain ⟨rate, size, md, l, u, ssh⟩ := s
  cases md with
  | some e => simp [serverRun]
  | none =>
    cases hc : chunkTime size rate with
    | none =>
      have : rate = 0 := by
        unfold chunkTime at hc
        split at hc
        · assumption
        · cases hc
      simp only [serverRun, hc]
      simp [this]
    | some t =>
      have h0 : rate ≠ 0 := by
        rintro rfl
        simp [chunkTime] at hc
      simp only [serverRun, hc]
      cases l with
      | some e => simp [h0]
      | none =>
        cases u with
        | some e => simp [h0]
        | none =>
          have hst : Ev.control ∉ scheduleServer size rate t := by
            unfold scheduleServer
            split
            · simp
            · split
              · simp
              · split <;> simp
          cases ssh <;> simp [startSSH, hst, h0]

theorem checkDir_none (w : World) (p : List Char) : checkDir w p = none ↔ w.stat p = .dir := by
  unfold checkDir
  cases w.stat p <;> simp

theorem startServer_none (w : World) (a : List Char) : startServer w a = none ↔ w.listen a = none := by
  simp [startServer]

/-- **C121** When the words make the server stream music: the music directory named is a directory, the address and port named
can be listened on, the users file named can be read, and a chunk of the size given takes at least a nanosecond at the sample
rate given. The control interface is up if moreover its address and port can be listened on with the host key named; it does
not depend on the chunk size. -/
theorem C121_complete (w : World) {words : List Word} {opts : List (List Char × Given)} {s : Settings} {l sl : List Char}
    (h : Starts parseDuration serverTable words opts) (hs : InForce opts s) (hl : Joined s.address s.port l)
    (hsl : Joined s.sshAddress s.sshPort sl) :
    ∃ evs, serverMain w words = some evs ∧
    (.streaming ∈ evs ↔ w.stat s.dir = .dir ∧ w.listen l = none ∧ w.users s.users = none ∧ Sensible s.size s.rate) ∧
    (.control ∈ evs ↔ w.stat s.dir = .dir ∧ s.rate ≠ 0 ∧ w.listen l = none ∧ w.users s.users = none ∧ w.ssh sl s.key = none) := by
  rw [joined_iff] at hl hsl
  subst hl hsl
  refine ⟨_, serverMain_eq w h hs, ?_, ?_⟩
  · rw [run_streaming]
    simp only [checkDir_none, startServer_none]
  · rw [run_control]
    simp only [checkDir_none, startServer_none]

/-- **C121** When the words make the server crash: the sample rate is 0, or it gets as far as streaming with a negative sample
rate, or with a negative chunk size that 64 bit arithmetic makes positive. All these words are accepted. -/
theorem C121_crash (w : World) {words : List Word} {opts : List (List Char × Given)} {s : Settings} {l : List Char}
    (h : Starts parseDuration serverTable words opts) (hs : InForce opts s) (hl : Joined s.address s.port l) :
    ∃ evs, serverMain w words = some evs ∧
    (.panic ∈ evs ↔ w.stat s.dir = .dir ∧ (s.rate = 0 ∨ w.listen l = none ∧ w.users s.users = none ∧
      (s.rate < 0 ∨ s.size < 0 ∧ s.rate ≤ (s.size * 1000000000).bmod (2 ^ 64)))) := by
  rw [joined_iff] at hl
  subst hl
  refine ⟨_, serverMain_eq w h hs, ?_⟩
  rw [run_panic]
  simp only [checkDir_none, startServer_none]

/-- **C121** What is said if something is wrong, with a sample rate other than 0: the first that is wrong of directory, port and
users file, with the name that was given. -/
theorem C121_messages (w : World) {words : List Word} {opts : List (List Char × Given)} {s : Settings} {l : List Char}
    (h : Starts parseDuration serverTable words opts) (hs : InForce opts s) (hl : Joined s.address s.port l) :
    (∀ e, w.stat s.dir = .missing e →
      serverMain w words = some [.exit 1 ("invalid music dir: failed to access ".toList ++ s.dir ++ ": ".toList ++ e)]) ∧
    (w.stat s.dir = .file → serverMain w words = some [.exit 1 ("invalid music dir: ".toList ++ s.dir ++ " is not a directory".toList)]) ∧
    (w.stat s.dir = .dir → s.rate ≠ 0 →
      (∀ e, w.listen l = some e → serverMain w words = some [.exit 1 ("failed to start server at ".toList ++ l ++ ": ".toList ++ e)]) ∧
      (∀ e, w.listen l = none → w.users s.users = some e → serverMain w words = some [.listening, .exit 1 e])) := by
  rw [joined_iff] at hl
  subst hl
  rw [serverMain_eq w h hs]
  refine ⟨?_, ?_, ?_⟩
  · intro e he
    simp only [serverRun, checkDir, he]
    rfl
  · intro he
    simp only [serverRun, checkDir, he]
    rw [List.append_assoc]
  · intro he hr
    have hc : chunkTime s.size s.rate = some (wrap64 ((wrap64 (s.size * 1000000000)).tdiv s.rate)) := by
      unfold chunkTime; rw [if_neg hr]
    refine ⟨?_, ?_⟩
    · intro e h1
      simp only [serverRun, checkDir, he, hc, startServer, h1, Option.map_some]
    · intro e h1 h2
      simp only [serverRun, checkDir, he, hc, startServer, h1, Option.map_none, h2]

/-- **C121** What runs is decided by the settings alone: words that leave the same settings in force have the same effect. -/
theorem C121_decided (w : World) {words words' : List Word} {opts opts' : List (List Char × Given)} {s : Settings}
    (h : Starts parseDuration serverTable words opts) (h' : Starts parseDuration serverTable words' opts') (hs : InForce opts s)
    (hs' : InForce opts' s) : serverMain w words = serverMain w words' := by
  rw [serverMain_eq w h hs, serverMain_eq w h' hs']

/-! ## The clients -/

theorem client_values {t : Table} {words : List Word} {opts : List (List Char × Given)} (h : Starts parseDuration t words opts)
    (hu : ∀ n k k', Known t n k → Known t n k' → k = k') (h1 : ((["address", "addr", "a"], .text) : List String × Kind) ∈ t)
    (h2 : ((["port", "p"], .int) : List String × Kind) ∈ t) (h3 : ((["sample-rate"], .int) : List String × Kind) ∈ t) :
    ∃ a p r, Client opts a p r ∧ (∀ a' p' r', Client opts a' p' r' → a' = a ∧ p' = p ∧ r' = r) ∧
      (∀ n ∈ [p, r], -2 ^ 63 ≤ n ∧ n < 2 ^ 63) := by
  obtain ⟨a, ha⟩ := text_value h hu ["address", "addr", "a"] h1 "127.0.0.1".toList
  obtain ⟨p, hp, hp'⟩ := int_value h hu ["port", "p"] h2 13333 (by decide)
  obtain ⟨r, hr, hr'⟩ := int_value h hu ["sample-rate"] h3 44100 (by decide)
  refine ⟨a, p, r, ⟨ha, hp, hr⟩, ?_, ?_⟩
  · rintro a' p' r' ⟨e1, e2, e3⟩
    rw [ha] at e1; rw [hp] at e2; rw [hr] at e3
    injection e1 with e1; injection e2 with e2; injection e3 with e3
    exact ⟨e1.symm, e2.symm, e3.symm⟩
  · intro n hn
    simp only [List.mem_cons, List.not_mem_nil, or_false] at hn
    rcases hn with rfl | rfl <;> assumption

/-- **C121** The words that start a client leave one address, one port and one sample rate in force. -/
theorem C121_client_settings {words : List Word} {opts : List (List Char × Given)}
    (h : Starts parseDuration playerTable words opts ∨ Starts parseDuration infoerTable words opts) :
    ∃ a p r, Client opts a p r ∧ (∀ a' p' r', Client opts a' p' r' → a' = a ∧ p' = p ∧ r' = r) ∧
      (∀ n ∈ [p, r], -2 ^ 63 ≤ n ∧ n < 2 ^ 63) := by
  rcases h with h | h
  · exact client_values h (unique_of player_describes) (by decide) (by decide) (by decide)
  · exact client_values h (unique_of infoer_describes) (by decide) (by decide) (by decide)

/-- **C121** The player asks for the server at the address and port of its command line. If it cannot be reached, the player says
so and ends with status 1; otherwise it runs, with its sound opened at the sample rate of the command line. -/
theorem C121_player (w : World) {words : List Word} {opts : List (List Char × Given)} {a l : List Char} {p r : Int}
    (h : Starts parseDuration playerTable words opts) (hs : Client opts a p r) (hl : Joined a p l) :
    (∀ e, w.dial l = some e →
      playerMain w words = some ([.exit 1 ("could not connect to master at ".toList ++ l ++ ": ".toList ++ e)], none)) ∧
    (w.dial l = none → ∃ sound, playerMain w words = some ([.connected, .running], some sound) ∧
      (∀ e, w.sound r = some e → sound = .exit ("failed to initialized playback: failed to initialize speaker: ".toList ++ e)) ∧
      (w.sound r = none → 0 ≤ r → r < 90000000000 → ∃ n, sound = .plays n ∧ n * 10 ≤ r ∧ r < (n + 1) * 10) ∧
      (w.sound r = none → r < 0 → -90000000000 < r → sound = .panic)) := by
  rw [joined_iff] at hl
  subst hl
  have e : playerMain w words = some (playerRun (connectToServer w (hostPort a p)),
      if connectToServer w (hostPort a p) = none then some (playerSound w r) else none) := by
    unfold playerMain
    rw [(C119_clients words _).1.2 ⟨opts, h, rfl⟩, hs.1, hs.2.1, hs.2.2]
    rfl
  rw [e]
  refine ⟨?_, ?_⟩
  · intro x hx
    have : connectToServer w (hostPort a p) = some ("could not connect to master at ".toList ++ hostPort a p ++ ": ".toList ++ x) := by
      unfold connectToServer; rw [hx]; rfl
    rw [this]
    rfl
  · intro hx
    have : connectToServer w (hostPort a p) = none := by unfold connectToServer; rw [hx]; rfl
    rw [this]
    refine ⟨playerSound w r, rfl, ?_, ?_, ?_⟩
    · intro x hx
      unfold playerSound
      rw [hx]
    · intro h0 h1 h2
      refine ⟨r / 10, ?_, by omega, by omega⟩
      unfold playerSound
      rw [h0, Commands.wrap64_id (by omega) (by omega), Commands.wrap64_id (by omega) (by omega),
        Int.tdiv_eq_ediv_of_nonneg (by omega)]
      simp only
      rw [if_neg (by omega), if_neg (by omega)]
      congr 1
      omega
    · intro h0 h1 h2
      unfold playerSound
      rw [h0, Commands.wrap64_id (show -2 ^ 63 ≤ 2 * r by omega) (by omega)]
      simp only
      rw [if_pos (by omega)]

/-- **C121** The infoer asks for the server at the address and port of its command line, once it has the terminal. It does not
say why it fails if the server cannot be reached: it crashes. -/
theorem C121_infoer (w : World) {words : List Word} {opts : List (List Char × Given)} {a l : List Char} {p r : Int}
    (h : Starts parseDuration infoerTable words opts) (hs : Client opts a p r) (hl : Joined a p l) (quitFirst : Bool) :
    (∀ e, w.screen = some e → infoerMain w words quitFirst = some [.exit 1 e]) ∧
    (w.screen = none → quitFirst = true → infoerMain w words quitFirst = some [.screenOn, .screenOff]) ∧
    (w.screen = none → quitFirst = false → infoerMain w words quitFirst =
      some (if w.dial l = none then [.screenOn, .connected, .running] else [.screenOn, .panic])) := by
  rw [joined_iff] at hl
  subst hl
  have e : infoerMain w words quitFirst = some (infoerRun w.screen (connectToServer w (hostPort a p)) quitFirst) := by
    unfold infoerMain
    rw [(C119_clients words _).2.2 ⟨opts, h, rfl⟩, hs.1, hs.2.1]
    rfl
  rw [e]
  refine ⟨?_, ?_, ?_⟩
  · intro x hx
    rw [hx]
    rfl
  · intro hx hq
    rw [hx, hq]
    rfl
  · intro hx hq
    rw [hx, hq]
    cases hd : w.dial (hostPort a p) <;> simp [connectToServer, infoerRun, Startup.infoer, hd]

/-! ## Without options -/

/-- **C121** Without options: the directory `audio`, the addresses `127.0.0.1:13333` and `127.0.0.1:13334`, the files
`users.json` and `id_rsa`; the player and the infoer ask for the address where the server is. -/
theorem C121_defaults (w : World) :
    (∃ evs, serverMain w [] = some evs ∧
      (.streaming ∈ evs ↔ w.stat "audio".toList = .dir ∧ w.listen "127.0.0.1:13333".toList = none ∧ w.users "users.json".toList = none) ∧
      (.control ∈ evs ↔ .streaming ∈ evs ∧ w.ssh "127.0.0.1:13334".toList "id_rsa".toList = none) ∧
      .panic ∉ evs) ∧
    (∃ evs sound, playerMain w [] = some (evs, sound) ∧ (.connected ∈ evs ↔ w.dial "127.0.0.1:13333".toList = none)) := by
  have hi : InForce [] ⟨"127.0.0.1".toList, 13333, "audio".toList, "127.0.0.1".toList, 13334, "users.json".toList, "id_rsa".toList,
      176400, 44100⟩ := by constructor <;> rfl
  have hst : Starts parseDuration serverTable [] [] := (run_iff server_prog _ _).1 (by decide +kernel)
  have hpl : Starts parseDuration playerTable [] [] := (run_iff player_prog _ _).1 (by decide +kernel)
  have j1 : Joined "127.0.0.1".toList 13333 "127.0.0.1:13333".toList := (joined_iff _ _ _).2 (by simp [hostPort, Commands.decInt, Fmt.dec, Fmt.digit])
  have j2 : Joined "127.0.0.1".toList 13334 "127.0.0.1:13334".toList := (joined_iff _ _ _).2 (by simp [hostPort, Commands.decInt, Fmt.dec, Fmt.digit])
  refine ⟨?_, ?_⟩
  · obtain ⟨evs, h1, h2, h3⟩ := C121_complete w hst hi j1 j2
    obtain ⟨evs', h4, h5⟩ := C121_crash w hst hi j1
    rw [h1] at h4
    cases h4
    have hse : Sensible 176400 44100 := by decide
    refine ⟨evs, h1, ?_, ?_, ?_⟩
    · rw [h2]; simp [hse]
    · rw [h3, h2]
      simp only [hse]
      grind
    · rw [h5]
      simp
  · have hc : Client [] "127.0.0.1".toList 13333 44100 := ⟨rfl, rfl, rfl⟩
    have := C121_player w hpl hc j1
    cases hd : w.dial "127.0.0.1:13333".toList with
    | some e => exact ⟨_, _, this.1 e hd, by simp⟩
    | none =>
      obtain ⟨sound, h1, -⟩ := this.2 hd
      exact ⟨_, _, h1, by simp⟩

/-- **C121** The version that `--version` shows. -/
theorem C121_version (tag commit : List Char) :
    (tag ≠ [] → commit = [] → version tag commit = tag) ∧ (tag = [] → commit = [] → version tag commit = "untagged".toList) ∧
    (commit ≠ [] → ∃ v c more, version tag commit = v ++ "-".toList ++ c ∧ v = version tag [] ∧ commit = c ++ more ∧ c.length ≤ 8 ∧
      (more ≠ [] → c.length = 8)) := by
  refine ⟨?_, ?_, ?_⟩
  · intro h1 h2; simp [version, h1, h2]
  · intro h1 h2; simp [version, h1, h2]
  · intro h
    refine ⟨_, commit.take 8, commit.drop 8, ?_, rfl, (List.take_append_drop 8 commit).symm, by rw [List.length_take]; omega, ?_⟩
    · have hv : version tag [] = if tag = [] then "untagged".toList else tag := by
        unfold version; rw [if_neg (fun h => h rfl)]
      rw [hv]
      unfold version
      rw [if_pos h, List.append_assoc]
      by_cases hl : 8 < commit.length
      · rw [if_pos hl]; rfl
      · rw [if_neg hl, List.take_of_length_le (by omega)]; rfl
    · intro hm
      have : 8 < commit.length := by
        apply Classical.byContradiction
        intro hn
        exact hm (List.drop_eq_nil_of_le (by omega))
      rw [List.length_take]; omega

/-! ## Examples -/

section examples

/-- Everything works, except that nothing listens on port 80 for the player and there is no directory `nope`. -/
def box : World where
  stat p := if p = "nope".toList then .missing "no such file".toList else .dir
  listen _ := none
  users _ := none
  ssh _ _ := none
  dial l := if l = "far:80".toList then some "connection refused".toList else none
  screen := none
  sound _ := none

example : ∃ opts, Starts parseDuration serverTable [CommandLine.w "-d", CommandLine.w "nope"] opts ∧ InForce opts
    ⟨"127.0.0.1".toList, 13333, "nope".toList, "127.0.0.1".toList, 13334, "users.json".toList, "id_rsa".toList, 176400, 44100⟩ :=
  ⟨[("d".toList, .val (.str "nope".toList))], (run_iff server_prog _ _).1 (by decide +kernel), by constructor <;> decide +kernel⟩
example : serverMain box [CommandLine.w "-d", CommandLine.w "nope"] =
    some [.exit 1 "invalid music dir: failed to access nope: no such file".toList] := by decide +kernel
example : serverMain box [] = some [.listening, .control, .streaming] := by decide +kernel
/-- A negative chunk size that 64 bit arithmetic makes positive. -/
example : serverMain box [CommandLine.w "--stream-chunk-size=-9223372037"] = some [.listening, .control, .panic] := by decide +kernel
example : serverMain box [CommandLine.w "--sample-rate", CommandLine.w "0"] = some [.panic] := by decide +kernel
example : Starts parseDuration playerTable [CommandLine.w "-a=far", CommandLine.w "-p", CommandLine.w "80"]
    [("a".toList, .val (.str "far".toList)), ("p".toList, .val (.int 80))] ∧
    Client [("a".toList, .val (.str "far".toList)), ("p".toList, .val (.int 80))] "far".toList 80 44100 :=
  ⟨(run_iff player_prog _ _).1 (by decide +kernel), by decide +kernel, by decide +kernel, by decide +kernel⟩
example : Joined "far".toList (-80) "far:-80".toList := (joined_iff _ _ _).2 (by simp [hostPort, Commands.decInt, Fmt.dec, Fmt.digit])
example : playerSound box 44105 = .plays 4410 ∧ playerSound box 9 = .plays 0 ∧ playerSound box (-1) = .panic := by decide +kernel
example : version "v1".toList "0123456789".toList = "v1-01234567".toList ∧ version [] [] = "untagged".toList := by decide

end examples

end MS.Launch
