import Verif.Model.Flags
/-!
# Property C99: options on the command line
-/
set_option linter.unusedSimpArgs false
namespace MS.Flags

/-! ## Specification -/

/-- The value of an option with the given names: the last one given on the command line under any of the names, else the
default. -/
def effective (opts : List String) (dflt : Val) (args : Args) : Val :=
  ((args.filter (fun a => opts.any (fun n => n.toList == a.1))).getLast?.map (·.2)).getD dflt

/-- The options of the server: names and defaults, as `--help` and the README show them. -/
def serverOptions : List (List String × Val) := [
  (["address", "addr", "a"], .str "127.0.0.1".toList),
  (["port", "p"], .int 13333),
  (["music-dir", "dir", "d"], .str "audio".toList),
  (["ssh-address", "ssh-addr", "sa"], .str "127.0.0.1".toList),
  (["ssh-port", "sp"], .int 13334),
  (["users-file", "users", "u"], .str "users.json".toList),
  (["host-key", "key", "k"], .str "id_rsa".toList),
  (["time-sync-interval"], .dur 600000000000),
  (["time-sync-cycles"], .int 500),
  (["time-sync-cycle-delay"], .dur 10000000),
  (["stream-chunk-size"], .int 176400),
  (["stream-start-delay"], .dur 5000000000),
  (["stream-delay"], .dur 15000000000),
  (["song-break-size"], .int 44100),
  (["sample-rate"], .int 44100)]

/-- The options of a player. -/
def playerOptions : List (List String × Val) := [
  (["address", "addr", "a"], .str "127.0.0.1".toList), (["port", "p"], .int 13333), (["sample-rate"], .int 44100)]

/-- The options of an infoer. -/
def infoerOptions : List (List String × Val) := playerOptions ++ [(["lyrics-history-size"], .int 5)]

/-- A proper command line: every option on it is one of those given, and no option is given under two names. -/
def Proper (opts : List (List String × Val)) (args : Args) : Prop :=
  (∀ a ∈ args, ∃ o ∈ opts, ∃ n ∈ o.1, a.1 = n.toList) ∧
  (∀ o ∈ opts, ∀ n ∈ o.1, ∀ m ∈ o.1, ∀ a ∈ args, ∀ b ∈ args, a.1 = n.toList → b.1 = m.toList → n = m)

/-! ## Proofs -/

/-- The flags are the options. -/
def Match (flags : Flags) (opts : List (List String × Val)) : Prop :=
  flags.map (fun f => (names f, f.value)) = opts.map (fun o => (o.1.map String.toList, o.2))

theorem find_head {α : Type} (l : List α) (p : α → Bool) : l.find? p = (l.filter p).head? := by
  induction l with
  | nil => rfl
  | cons a l ih =>
    rw [List.find?_cons, List.filter_cons]
    cases p a
    · exact ih
    · rfl

theorem last_find {α : Type} (l : List α) (p : α → Bool) : l.reverse.find? p = (l.filter p).getLast? := by
  rw [find_head, List.filter_reverse, List.head?_reverse]

theorem effective_eq (opts : List String) (dflt : Val) (args : Args) : effective opts dflt args =
    ((args.reverse.find? (fun a => (opts.map String.toList).contains a.1)).map (·.2)).getD dflt := by
  rw [last_find]
  unfold effective
  congr 3
  apply List.filter_congr
  intro a _
  rw [Bool.eq_iff_iff]
  simp only [List.any_eq_true, beq_iff_eq, List.contains_iff_mem, List.mem_map]

theorem find_congr {α : Type} {l : List α} {p q : α → Bool} (h : ∀ a ∈ l, p a = q a) : l.find? p = l.find? q := by
  rw [find_head, find_head, List.filter_congr h]

/-- The value read for a flag that is not given under two names. -/
theorem lookup_eq {flags : Flags} {f : Flag} {args : Args} {opts : List String} {d : Val} (hd : f.value = d)
    (hf : flags.find? (fun g => (names g).contains (flagKey f)) = some f) (ho : names f = opts.map String.toList)
    (ha : formOf f args ≠ some none) : lookup flags args (flagKey f) = some (effective opts d args) := by
  subst hd
  rw [effective_eq, ← ho]
  unfold lookup
  rw [hf]
  simp only
  have given : ∀ a ∈ args, a.1 ∈ names f → a.1 ∈ (names f).filter (fun n => args.any (fun a => a.1 == n)) := by
    intro a h1 h2
    rw [List.mem_filter]
    exact ⟨h2, List.any_eq_true.2 ⟨a, h1, by simp⟩⟩
  unfold formOf at ha ⊢
  generalize hg : (names f).filter (fun n => args.any (fun a => a.1 == n)) = g at *
  match g with
  | [] =>
    have : args.reverse.find? (fun a => (names f).contains a.1) = none := by
      rw [List.find?_eq_none]
      intro a h1 h2
      have := given a (by simpa using h1) (by simpa using h2)
      simp at this
    rw [this]; rfl
  | [n] =>
    simp only [lastGiven]
    congr 3
    apply find_congr
    intro a h1
    rw [Bool.eq_iff_iff]
    simp only [beq_iff_eq, List.contains_iff_mem]
    constructor
    · rintro rfl
      have : a.1 ∈ [a.1] := by simp
      rw [← hg] at this
      exact (List.mem_filter.1 this).1
    · intro h2
      have := given a (by simpa using h1) h2
      simpa using this
  | _ :: _ :: _ => simp at ha

theorem filter_two {α : Type} [DecidableEq α] {l : List α} {p : α → Bool} (hn : l.Nodup) :
    (∃ x y r, l.filter p = x :: y :: r) ↔ ∃ x ∈ l, ∃ y ∈ l, x ≠ y ∧ p x = true ∧ p y = true := by
  constructor
  · rintro ⟨x, y, r, h⟩
    have hm : ∀ z ∈ x :: y :: r, z ∈ l ∧ p z = true := by
      intro z hz; rw [← h] at hz; exact List.mem_filter.1 hz
    have hnd : (x :: y :: r).Nodup := by rw [← h]; exact List.Pairwise.filter p hn
    rw [List.nodup_cons, List.mem_cons, not_or] at hnd
    exact ⟨x, (hm x (by simp)).1, y, (hm y (by simp)).1, hnd.1.1, (hm x (by simp)).2, (hm y (by simp)).2⟩
  · rintro ⟨x, hx, y, hy, hne, px, py⟩
    have h1 : x ∈ l.filter p := List.mem_filter.2 ⟨hx, px⟩
    have h2 : y ∈ l.filter p := List.mem_filter.2 ⟨hy, py⟩
    match hl : l.filter p with
    | [] => rw [hl] at h1; simp at h1
    | [z] => rw [hl] at h1 h2; simp at h1 h2; exact absurd (h1.trans h2.symm) hne
    | a :: b :: r => exact ⟨a, b, r, rfl⟩

theorem toList_inj {a b : String} (h : a.toList = b.toList) : a = b := by
  have := congrArg String.ofList h
  simpa using this

theorem accepted_iff {flags : Flags} {opts : List (List String × Val)} (h : Match flags opts)
    (hn : ∀ f ∈ flags, (names f).Nodup) (args : Args) : accepted flags args = true ↔ Proper opts args := by
  have to : ∀ f ∈ flags, ∃ o ∈ opts, names f = o.1.map String.toList := by
    intro f hf
    have : (names f, f.value) ∈ flags.map (fun f => (names f, f.value)) := List.mem_map.2 ⟨f, hf, rfl⟩
    rw [h] at this
    obtain ⟨o, ho, e⟩ := List.mem_map.1 this
    simp at e
    exact ⟨o, ho, e.1.symm⟩
  have fro : ∀ o ∈ opts, ∃ f ∈ flags, names f = o.1.map String.toList := by
    intro o ho
    have : (o.1.map String.toList, o.2) ∈ opts.map (fun o => (o.1.map String.toList, o.2)) := List.mem_map.2 ⟨o, ho, rfl⟩
    rw [← h] at this
    obtain ⟨f, hf, e⟩ := List.mem_map.1 this
    simp at e
    exact ⟨f, hf, e.1⟩
  have form : ∀ f ∈ flags, (formOf f args = some none ↔
      ∃ x ∈ names f, ∃ y ∈ names f, x ≠ y ∧ (∃ a ∈ args, a.1 = x) ∧ ∃ b ∈ args, b.1 = y) := by
    intro f hf
    have ft := filter_two (p := fun n => args.any (fun a => a.1 == n)) (hn f hf)
    simp only [List.any_eq_true, beq_iff_eq] at ft
    rw [← ft]
    unfold formOf
    generalize (names f).filter (fun n => args.any (fun a => a.1 == n)) = g
    match g with
    | [] => simp
    | [n] => simp
    | a :: b :: r => simp
  unfold accepted Proper
  simp only [Bool.and_eq_true, List.all_eq_true, List.any_eq_true, List.contains_iff_mem, bne_iff_ne]
  constructor
  · rintro ⟨h1, h2⟩
    constructor
    · intro a ha
      obtain ⟨f, hf, hm⟩ := h1 a ha
      obtain ⟨o, ho, e⟩ := to f hf
      rw [e, List.mem_map] at hm
      obtain ⟨n, hn, e⟩ := hm
      exact ⟨o, ho, n, hn, e.symm⟩
    · intro o ho n hn' m hm a ha b hb e1 e2
      obtain ⟨f, hf, e⟩ := fro o ho
      by_cases hnm : n = m
      · exact hnm
      · refine absurd ((form f hf).2 ⟨n.toList, ?_, m.toList, ?_, fun h => hnm (toList_inj h), ⟨a, ha, e1⟩, b, hb, e2⟩) (h2 f hf)
        · rw [e]; exact List.mem_map.2 ⟨n, hn', rfl⟩
        · rw [e]; exact List.mem_map.2 ⟨m, hm, rfl⟩
  · rintro ⟨h1, h2⟩
    constructor
    · intro a ha
      obtain ⟨o, ho, n, hn, e⟩ := h1 a ha
      obtain ⟨f, hf, e'⟩ := fro o ho
      exact ⟨f, hf, by rw [e', e]; exact List.mem_map.2 ⟨n, hn, rfl⟩⟩
    · intro f hf hbad
      obtain ⟨x, hx, y, hy, hne, ⟨a, ha, rfl⟩, b, hb, rfl⟩ := (form f hf).1 hbad
      obtain ⟨o, ho, e⟩ := to f hf
      rw [e, List.mem_map] at hx hy
      obtain ⟨n, hn, e1⟩ := hx
      obtain ⟨m, hm, e2⟩ := hy
      have := h2 o ho n hn m hm a ha b hb e1.symm e2.symm
      subst this
      exact hne (e1.symm.trans e2)

theorem formOf_accepted {flags : Flags} {args : Args} (h : accepted flags args = true) {f : Flag} (hf : f ∈ flags) :
    formOf f args ≠ some none := by
  simp only [accepted, Bool.and_eq_true, List.all_eq_true, bne_iff_ne] at h
  exact h.2 f hf

set_option maxRecDepth 20000 in
theorem server_match : Match serverFlags serverOptions := by unfold Match; decide
set_option maxRecDepth 20000 in
theorem player_match : Match playerFlags playerOptions := by unfold Match; decide
set_option maxRecDepth 20000 in
theorem infoer_match : Match infoerFlags infoerOptions := by unfold Match; decide

/-! ## The property -/

set_option maxRecDepth 20000 in
/-- C99, command lines: exactly the proper ones are accepted, by each of the three programs. -/
theorem C99_accepted_iff (args : Args) :
    ((∃ u, server args = some u) ↔ Proper serverOptions args) ∧
    ((∃ u, player args = some u) ↔ Proper playerOptions args) ∧
    ((∃ u, infoer args = some u) ↔ Proper infoerOptions args) := by
  rw [← accepted_iff server_match (by decide) args, ← accepted_iff player_match (by decide) args,
    ← accepted_iff infoer_match (by decide) args]
  refine ⟨?_, ?_, ?_⟩
  · unfold server; split <;> simp_all
  · unfold player; split <;> simp_all
  · unfold infoer; split <;> simp_all

set_option maxRecDepth 20000 in
/-- C99, server, except for the three time-sync options: each option, under whichever of its names, has exactly the
effect its description says, and options not given have the documented defaults.
Missing from the full property: the options for time synchronisation (`C99_time_sync_ignored`) and logging (C50). -/
theorem C99_server_partial (args : Args) (u : ServerUses) (h : server args = some u) :
    u.listenAddress = some (effective ["address", "addr", "a"] (.str "127.0.0.1".toList) args) ∧
    u.listenPort = some (effective ["port", "p"] (.int 13333) args) ∧
    u.musicDir = some (effective ["music-dir", "dir", "d"] (.str "audio".toList) args) ∧
    u.sshAddress = some (effective ["ssh-address", "ssh-addr", "sa"] (.str "127.0.0.1".toList) args) ∧
    u.sshPort = some (effective ["ssh-port", "sp"] (.int 13334) args) ∧
    u.sshUsers = some (effective ["users-file", "users", "u"] (.str "users.json".toList) args) ∧
    u.sshKeyFile = some (effective ["host-key", "key", "k"] (.str "id_rsa".toList) args) ∧
    u.streamChunkSize = some (effective ["stream-chunk-size"] (.int 176400) args) ∧
    u.streamStartDelay = some (effective ["stream-start-delay"] (.dur 5000000000) args) ∧
    u.streamDelay = some (effective ["stream-delay"] (.dur 15000000000) args) ∧
    u.nanBreakSize = some (effective ["song-break-size"] (.int 44100) args) ∧
    u.sampleRate = some (effective ["sample-rate"] (.int 44100) args) := by
  unfold server at h
  split at h
  · rename_i ha
    simp only [Option.some.injEq] at h
    subst h
    dsimp only [setScheduleVars]
    refine ⟨?_, ?_, ?_, ?_, ?_, ?_, ?_, ?_, ?_, ?_, ?_, ?_⟩
    · exact lookup_eq (f := listenAddressFlag) (by decide) (by decide) (by decide) (formOf_accepted ha (by decide))
    · exact lookup_eq (f := listenPortFlag) (by decide) (by decide) (by decide) (formOf_accepted ha (by decide))
    · exact lookup_eq (f := musicDirFlag) (by decide) (by decide) (by decide) (formOf_accepted ha (by decide))
    · exact lookup_eq (f := sshAddressFlag) (by decide) (by decide) (by decide) (formOf_accepted ha (by decide))
    · exact lookup_eq (f := sshPortFlag) (by decide) (by decide) (by decide) (formOf_accepted ha (by decide))
    · exact lookup_eq (f := sshUsersFlag) (by decide) (by decide) (by decide) (formOf_accepted ha (by decide))
    · exact lookup_eq (f := sshKeyFileFlag) (by decide) (by decide) (by decide) (formOf_accepted ha (by decide))
    · exact lookup_eq (f := streamChunkSizeFlag) (by decide) (by decide) (by decide) (formOf_accepted ha (by decide))
    · exact lookup_eq (f := streamStartDelayFlag) (by decide) (by decide) (by decide) (formOf_accepted ha (by decide))
    · exact lookup_eq (f := streamDelayFlag) (by decide) (by decide) (by decide) (formOf_accepted ha (by decide))
    · exact lookup_eq (f := nanBreakSizeFlag) (by decide) (by decide) (by decide) (formOf_accepted ha (by decide))
    · exact lookup_eq (f := sampleRateFlag) (by decide) (by decide) (by decide) (formOf_accepted ha (by decide))
  · simp at h

set_option maxRecDepth 20000 in
/-- C99, player and infoer: the same. -/
theorem C99_clients_partial (args : Args) (u : ClientUses) :
    (player args = some u → u.address = some (effective ["address", "addr", "a"] (.str "127.0.0.1".toList) args) ∧
      u.port = some (effective ["port", "p"] (.int 13333) args) ∧
      u.sampleRate = some (effective ["sample-rate"] (.int 44100) args)) ∧
    (infoer args = some u → u.address = some (effective ["address", "addr", "a"] (.str "127.0.0.1".toList) args) ∧
      u.port = some (effective ["port", "p"] (.int 13333) args) ∧
      u.sampleRate = some (effective ["sample-rate"] (.int 44100) args) ∧
      u.lyricsHistorySize = some (effective ["lyrics-history-size"] (.int 5) args)) := by
  constructor
  · intro h
    unfold player at h
    split at h
    · rename_i ha
      simp only [Option.some.injEq] at h
      subst h
      dsimp only
      refine ⟨?_, ?_, ?_⟩
      · exact lookup_eq (f := serverAddressFlag) (by decide) (by decide) (by decide) (formOf_accepted ha (by decide))
      · exact lookup_eq (f := serverPortFlag) (by decide) (by decide) (by decide) (formOf_accepted ha (by decide))
      · exact lookup_eq (f := sampleRateFlag) (by decide) (by decide) (by decide) (formOf_accepted ha (by decide))
    · simp at h
  · intro h
    unfold infoer at h
    split at h
    · rename_i ha
      simp only [Option.some.injEq] at h
      subst h
      dsimp only
      refine ⟨?_, ?_, ?_, ?_⟩
      · exact lookup_eq (f := serverAddressFlag) (by decide) (by decide) (by decide) (formOf_accepted ha (by decide))
      · exact lookup_eq (f := serverPortFlag) (by decide) (by decide) (by decide) (formOf_accepted ha (by decide))
      · exact lookup_eq (f := sampleRateFlag) (by decide) (by decide) (by decide) (formOf_accepted ha (by decide))
      · exact lookup_eq (f := lyricsHistorySizeFlag) (by decide) (by decide) (by decide) (formOf_accepted ha (by decide))
    · simp at h

/-- C99 fails: the three time-sync options of the server have no effect on anything. The server does not use them, and the
programs that synchronise their clocks do not know them: whatever is on their command lines, they synchronise every ten
minutes, with 500 requests 10 milliseconds apart. -/
theorem C99_time_sync_ignored (args args' : Args) (hp : Proper serverOptions args) (hp' : Proper serverOptions args')
    (hsame : ∀ o ∈ serverOptions, o.1 ≠ ["time-sync-interval"] → o.1 ≠ ["time-sync-cycles"] → o.1 ≠ ["time-sync-cycle-delay"] →
      effective o.1 o.2 args = effective o.1 o.2 args') :
    server args = server args' ∧
    ∀ cargs u, player cargs = some u ∨ infoer cargs = some u →
      u.timeSyncInterval = some (.dur 600000000000) ∧ u.timeSyncCycles = some (.int 500) ∧
      u.timeSyncCycleDelay = some (.dur 10000000) := by
  constructor
  · obtain ⟨u, hu⟩ := (C99_accepted_iff args).1.2 hp
    obtain ⟨u', hu'⟩ := (C99_accepted_iff args').1.2 hp'
    rw [hu, hu']
    obtain ⟨a1, a2, a3, a4, a5, a6, a7, a8, a9, a10, a11, a12⟩ := C99_server_partial args u hu
    obtain ⟨b1, b2, b3, b4, b5, b6, b7, b8, b9, b10, b11, b12⟩ := C99_server_partial args' u' hu'
    simp only [serverOptions, List.mem_cons, List.not_mem_nil, or_false, forall_eq_or_imp, forall_eq] at hsame
    obtain ⟨c1, c2, c3, c4, c5, c6, c7, -, -, -, c8, c9, c10, c11, c12⟩ := hsame
    have c1 := c1 (by decide) (by decide) (by decide)
    have c2 := c2 (by decide) (by decide) (by decide)
    have c3 := c3 (by decide) (by decide) (by decide)
    have c4 := c4 (by decide) (by decide) (by decide)
    have c5 := c5 (by decide) (by decide) (by decide)
    have c6 := c6 (by decide) (by decide) (by decide)
    have c7 := c7 (by decide) (by decide) (by decide)
    have c8 := c8 (by decide) (by decide) (by decide)
    have c9 := c9 (by decide) (by decide) (by decide)
    have c10 := c10 (by decide) (by decide) (by decide)
    have c11 := c11 (by decide) (by decide) (by decide)
    have c12 := c12 (by decide) (by decide) (by decide)
    rw [← c1] at b1; rw [← c2] at b2; rw [← c3] at b3; rw [← c4] at b4; rw [← c5] at b5; rw [← c6] at b6
    rw [← c7] at b7; rw [← c8] at b8; rw [← c9] at b9; rw [← c10] at b10; rw [← c11] at b11; rw [← c12] at b12
    cases u; cases u'
    simp_all
  · rintro cargs u (h | h)
    · unfold player at h
      split at h
      · simp only [Option.some.injEq] at h; subst h; exact ⟨rfl, rfl, rfl⟩
      · simp at h
    · unfold infoer at h
      split at h
      · simp only [Option.some.injEq] at h; subst h; exact ⟨rfl, rfl, rfl⟩
      · simp at h

set_option maxRecDepth 20000 in
/-- C99 fails: the README's name for the host key option is not accepted. -/
theorem C99_host_key_file_rejected (args : Args) (v : Val) (h : ("host-key-file".toList, v) ∈ args) : server args = none := by
  cases hs : server args with
  | none => rfl
  | some u =>
    obtain ⟨o, ho, n, hn, e⟩ := ((C99_accepted_iff args).1.1 ⟨u, hs⟩).1 _ h
    have : ∀ o ∈ serverOptions, ∀ n ∈ o.1, "host-key-file".toList ≠ n.toList := by decide
    exact absurd e (this o ho n hn)

/-- A command line with an abbreviation, a repeated option and a time-sync option. -/
example : ∃ u, server [("p".toList, .int 1), ("time-sync-cycles".toList, .int 7), ("p".toList, .int 2)] = some u ∧
    u.listenPort = some (.int 2) ∧ u.sshPort = some (.int 13334) := by
  exact ⟨_, rfl, by decide, by decide⟩

end MS.Flags
