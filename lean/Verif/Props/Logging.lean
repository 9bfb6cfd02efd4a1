import Verif.Model.Logging
/-!
# Properties C49, C50, C69: logging
-/
namespace MS.Logging

local notation "Level" => Int

/-- Specification: the documented names of the levels. -/
def documented : List (Level × List Char × List Char) := [
  (0, "TRACE".toList, "TRC".toList), (1, "DEBUG".toList, "DBG".toList), (2, "INFO".toList, "INF".toList),
  (3, "WARN".toList, "WRN".toList), (4, "ERROR".toList, "ERR".toList), (5, "FATAL".toList, "FTL".toList)]

/-- Specification: a function that maps upper case ASCII letters to lower case ones and leaves lower case ones. -/
def LowersAscii (lower : Char → Char) : Prop :=
  (∀ c, 'A' ≤ c → c ≤ 'Z' → lower c = Char.ofNat (c.toNat + 32)) ∧ ∀ c, 'a' ≤ c → c ≤ 'z' → lower c = c

theorem documented_names : documented = levelNames.map fun e => (e.1, e.2.full, e.2.short) := by decide

theorem lower_upper {lower : Char → Char} (h : LowersAscii lower) (c d : Char) (h1 : 'A' ≤ c) (h2 : c ≤ 'Z')
    (he : d = Char.ofNat (c.toNat + 32)) : lower c = d := by rw [h.1 c h1 h2, he]

/-- The lower case names, for any `lower` that is right on ASCII. -/
def lowNames : List (Level × List Char × List Char) := [
  (0, ['t', 'r', 'a', 'c', 'e'], ['t', 'r', 'c']), (1, ['d', 'e', 'b', 'u', 'g'], ['d', 'b', 'g']),
  (2, ['i', 'n', 'f', 'o'], ['i', 'n', 'f']), (3, ['w', 'a', 'r', 'n'], ['w', 'r', 'n']),
  (4, ['e', 'r', 'r', 'o', 'r'], ['e', 'r', 'r']), (5, ['f', 'a', 't', 'a', 'l'], ['f', 't', 'l'])]

theorem low_names {lower : Char → Char} (h : LowersAscii lower) :
    levelNames.map (fun e => (e.1, e.2.full.map lower, e.2.short.map lower)) = lowNames := by
  have key : ∀ c d : Char, 'A' ≤ c ∧ c ≤ 'Z' ∧ d = Char.ofNat (c.toNat + 32) → lower c = d :=
    fun c d hc => lower_upper h c d hc.1 hc.2.1 hc.2.2
  have hA := key 'A' 'a' (by decide); have hB := key 'B' 'b' (by decide); have hC := key 'C' 'c' (by decide)
  have hD := key 'D' 'd' (by decide); have hE := key 'E' 'e' (by decide); have hF := key 'F' 'f' (by decide)
  have hG := key 'G' 'g' (by decide); have hI := key 'I' 'i' (by decide); have hL := key 'L' 'l' (by decide)
  have hN := key 'N' 'n' (by decide); have hO := key 'O' 'o' (by decide); have hR := key 'R' 'r' (by decide)
  have hT := key 'T' 't' (by decide); have hU := key 'U' 'u' (by decide); have hW := key 'W' 'w' (by decide)
  simp only [levelNames, List.map_cons, List.map_nil, hA, hB, hC, hD, hE, hF, hG, hI, hL, hN, hO, hR, hT, hU, hW]
  rfl

/-- Different levels have different names. -/
theorem low_distinct : ∀ a ∈ lowNames, ∀ b ∈ lowNames, ∀ n, (a.2.1 = n ∨ a.2.2 = n) → (b.2.1 = n ∨ b.2.2 = n) → a.1 = b.1 := by
  have : ∀ a ∈ lowNames, ∀ b ∈ lowNames, a.1 = b.1 ∨
      (a.2.1 ≠ b.2.1 ∧ a.2.1 ≠ b.2.2 ∧ a.2.2 ≠ b.2.1 ∧ a.2.2 ≠ b.2.2) := by decide
  intro a ha b hb n h1 h2
  rcases this a ha b hb with h | ⟨g1, g2, g3, g4⟩
  · exact h
  · exfalso
    rcases h1 with h1 | h1 <;> rcases h2 with h2 | h2 <;> subst h1
    · exact g1 h2.symm
    · exact g2 h2.symm
    · exact g3 h2.symm
    · exact g4 h2.symm

/-- C49, names: whatever the order of the iteration over the table, the level of a name is the one that has it as its full
or short name, up to case; a name that no level has means off. -/
theorem C49_level_by_name (lower : Char → Char) (hl : LowersAscii lower) (iter : List (Level × Names))
    (hi : iter.Perm levelNames) (name : List Char) :
    (∀ l full short, (l, full, short) ∈ documented → (full.map lower = name.map lower ∨ short.map lower = name.map lower) →
      levelByName lower iter name = l) ∧
    ((∀ l full short, (l, full, short) ∈ documented → full.map lower ≠ name.map lower ∧ short.map lower ≠ name.map lower) →
      levelByName lower iter name = 6) := by
  rw [documented_names]
  have mem : ∀ e ∈ levelNames, (e.1, e.2.full.map lower, e.2.short.map lower) ∈ lowNames := by
    intro e he
    rw [← low_names hl]
    exact List.mem_map_of_mem he
  constructor
  · intro l full short hm hn
    obtain ⟨e, he, heq⟩ := List.mem_map.1 hm
    simp only [Prod.mk.injEq] at heq
    obtain ⟨rfl, rfl, rfl⟩ := heq
    unfold levelByName
    have hsome : (iter.find? (fun e => e.2.full.map lower = name.map lower || e.2.short.map lower = name.map lower)).isSome := by
      rw [List.find?_isSome]
      exact ⟨e, hi.mem_iff.2 he, by simpa using hn⟩
    obtain ⟨d, hd⟩ := Option.isSome_iff_exists.1 hsome
    rw [hd]
    have h1 := hi.mem_iff.1 (List.mem_of_find?_eq_some hd)
    have h2 := List.find?_some hd
    simp only [Bool.or_eq_true, decide_eq_true_eq] at h2
    exact low_distinct _ (mem d h1) _ (mem e he) _ h2 hn
  · intro h
    unfold levelByName
    rw [List.find?_eq_none.2]
    · rfl
    · intro e he
      have := h e.1 e.2.full e.2.short (List.mem_map_of_mem (hi.mem_iff.1 he))
      simp [this.1, this.2]

/-- C49: every declared level, off included, has names from which it is found. -/
theorem C49_names_invert (lower : Char → Char) (hl : LowersAscii lower) (iter : List (Level × Names))
    (hi : iter.Perm levelNames) (l : Level) (h0 : 0 ≤ l) (h1 : l ≤ 6) :
    levelByName lower iter (fullName l) = l ∧ levelByName lower iter (shortName l) = l := by
  have key : l = 6 ∨ ∃ full short, (l, full, short) ∈ documented ∧ fullName l = full ∧ shortName l = short := by
    rw [documented_names]
    have : l = 0 ∨ l = 1 ∨ l = 2 ∨ l = 3 ∨ l = 4 ∨ l = 5 ∨ l = 6 := by
      have a : (0 : Int) ≤ l := h0
      have b : l ≤ (6 : Int) := h1
      show (l : Int) = 0 ∨ (l : Int) = 1 ∨ (l : Int) = 2 ∨ (l : Int) = 3 ∨ (l : Int) = 4 ∨ (l : Int) = 5 ∨ (l : Int) = 6
      omega
    rcases this with rfl | rfl | rfl | rfl | rfl | rfl | rfl
    all_goals first | exact .inl rfl | exact .inr ⟨_, _, by decide, rfl, rfl⟩
  rcases key with rfl | ⟨full, short, hm, e1, e2⟩
  · have hne : ∀ l full short, (l, full, short) ∈ documented → full.map lower ≠ [].map lower ∧ short.map lower ≠ [].map lower := by
      intro l full short hm
      have : ∀ e ∈ documented, e.2.1 ≠ [] ∧ e.2.2 ≠ [] := by decide
      have := this _ hm
      exact ⟨by simpa using this.1, by simpa using this.2⟩
    exact ⟨(C49_level_by_name lower hl iter hi []).2 hne, (C49_level_by_name lower hl iter hi []).2 hne⟩
  · rw [e1, e2]
    exact ⟨(C49_level_by_name lower hl iter hi full).1 l full short hm (.inl rfl),
      (C49_level_by_name lower hl iter hi short).1 l full short hm (.inr rfl)⟩

/-- C49, filtering: a message is written iff its level is at least the logger's cutoff (its own, or else the default), once,
to the error writer iff its level is warn (3) or above. -/
theorem C49_filter (s : Cutoffs) (name msg date : List Char) (level cutoff : Level)
    (hc : (s.levels name = some cutoff) ∨ (s.levels name = none ∧ s.dflt = cutoff)) :
    (level < cutoff → log s name msg date level = []) ∧
    (cutoff ≤ level → ∃ text, log s name msg date level = [(if 3 ≤ level then .error else .output, text)]) := by
  have e : cutoffLevel s name = cutoff := by
    unfold cutoffLevel
    rcases hc with h | ⟨h, h'⟩
    · simp [h]
    · simp [h, h']
  constructor
  · intro h
    simp [log, shouldLog, e, Int.not_le.2 h]
  · intro h
    refine ⟨replace (pairs name msg date level) (format.length + 1) format ++ ['\n'], ?_⟩
    simp only [log, shouldLog, e, h, decide_true, Bool.not_true, Bool.false_eq_true, if_false]
    have hw : warn = (3 : Int) := rfl
    by_cases h3 : level < warn
    · rw [if_pos h3, if_neg (by omega)]
    · rw [if_neg h3, if_pos (by omega)]

set_option maxRecDepth 20000 in
theorem replace_format (name msg date : List Char) (level : Level) :
    replace (pairs name msg date level) (format.length + 1) format =
      '[' :: (shortName level ++ ']' :: ' ' :: '[' :: (printName name ++ ']' :: ' ' :: (date ++ ':' :: ' ' :: (msg ++ [])))) := by
  rfl

/-- C69: a message is written verbatim, on one line with its level, its logger and the date, even if it contains the
placeholders of the format. -/
theorem C69_verbatim (s : Cutoffs) (name msg date : List Char) (level : Level) (w : Writer) (text : List Char)
    (h : (w, text) ∈ log s name msg date level) :
    text = "[".toList ++ shortName level ++ "] [".toList ++ (name ++ "    ".toList).take 4 ++ "] ".toList ++ date ++
      ": ".toList ++ msg ++ "\n".toList := by
  have e : text = replace (pairs name msg date level) (format.length + 1) format ++ ['\n'] := by
    unfold log at h
    simp only at h
    split at h
    · simp at h
    · split at h <;> (simp only [List.mem_singleton, Prod.mk.injEq] at h; exact h.2)
  rw [e, replace_format]
  have h1 : "[".toList = ['['] := rfl
  have h2 : "] [".toList = [']', ' ', '['] := rfl
  have h3 : "] ".toList = [']', ' '] := rfl
  have h4 : ": ".toList = [':', ' '] := rfl
  have h5 : "\n".toList = ['\n'] := rfl
  have h6 : "    ".toList = [' ', ' ', ' ', ' '] := rfl
  rw [h1, h2, h3, h4, h5, h6]
  simp [printName, List.append_assoc]

/-- C69: the placeholders a format may use. -/
theorem C69_placeholders (name msg date : List Char) (level : Level) :
    let shown := fun p : String => replace (pairs name msg date level) (p.toList.length + 1) p.toList
    shown "{lvl}" = shortName level ∧ shown "{level}" = fullName level ∧ shown "{name}" = (name ++ "    ".toList).take 4 ∧
    shown "{date}" = date ∧ shown "{message}" = msg ∧ shown "{msg}" = msg := by
  refine ⟨?_, ?_, ?_, ?_, ?_, ?_⟩ <;> exact List.append_nil _

/-! ## C50 -/

theorem handleFlags_levels (byName : List Char → Level) (ctx : List Char → List Char) (s : Cutoffs) (n : List Char)
    (hn : ∀ f ∈ loggingFlags, n ≠ flagName f) : (handleFlags byName ctx s).levels n = s.levels n := by
  have key : ∀ (fs : List (List Char)) (s : Cutoffs), (∀ f ∈ fs, n ≠ flagName f) → (fs.foldl (fun s f =>
      let levelName := ctx (flagKey (flagName f))
      if levelName ≠ [] then { s with levels := set s.levels (flagName f) (byName levelName) } else s) s).levels n = s.levels n := by
    intro fs
    induction fs with
    | nil => intro s _; rfl
    | cons f fs ih =>
      intro s h
      rw [List.foldl_cons, ih _ (fun g hg => h g (List.mem_cons_of_mem _ hg))]
      simp only
      split
      · simp [set, h f (by simp)]
      · rfl
  unfold handleFlags
  simp only
  split <;> exact key _ s hn

/-- C50 is false: no --<name>-logging flag has any effect on what the five loggers of the program write: whatever values
they have, every logger uses the default level, which only --logging sets. -/
theorem C50_flags_ineffective (byName : List Char → Level) (ctx : List Char → List Char) (name : List Char)
    (hn : name ∈ ["comm".toList, "play".toList, "shed".toList, "ssh".toList, "time".toList]) :
    cutoffLevel (handleFlags byName ctx init) name =
      if ctx "logging".toList = [] then info else byName (ctx "logging".toList) := by
  have h1 : (handleFlags byName ctx init).levels name = none := by
    rw [handleFlags_levels]
    · rfl
    · have : ∀ n ∈ ["comm".toList, "play".toList, "shed".toList, "ssh".toList, "time".toList], ∀ f ∈ loggingFlags, n ≠ flagName f := by
        decide
      exact this name hn
  have h2 : (handleFlags byName ctx init).dflt = if ctx "logging".toList = [] then info else byName (ctx "logging".toList) := by
    have key : ∀ (fs : List (List Char)) (s : Cutoffs), (fs.foldl (fun s f =>
        let levelName := ctx (flagKey (flagName f))
        if levelName ≠ [] then { s with levels := set s.levels (flagName f) (byName levelName) } else s) s).dflt = s.dflt := by
      intro fs
      induction fs with
      | nil => intro s; rfl
      | cons f fs ih =>
        intro s
        rw [List.foldl_cons, ih]
        simp only
        split <;> rfl
    have e : ("logging".toList : List Char) = ['l', 'o', 'g', 'g', 'i', 'n', 'g'] := rfl
    rw [e]
    unfold handleFlags
    simp only
    by_cases hd : ctx ['l', 'o', 'g', 'g', 'i', 'n', 'g'] = []
    · rw [if_neg (by simp [hd]), if_pos hd, key]; rfl
    · rw [if_pos hd, if_neg hd]
  simp [cutoffLevel, h1, h2]

/-- C50, what the flags do instead: each of the five documented flags, if given, sets the level of a logger with the name
of the flag (there is none), to the level of that name; nothing else is set. -/
theorem C50_flags_misplaced (byName : List Char → Level) (ctx : List Char → List Char) (n : List Char) :
    (handleFlags byName ctx init).levels n =
      if n ∈ ["comm-logging".toList, "play-logging".toList, "shed-logging".toList, "ssh-logging".toList,
          "time-logging".toList] ∧ ctx n ≠ [] then some (byName (ctx n)) else none := by
  have key : ∀ (fs : List (List Char)) (s : Cutoffs), (fs.foldl (fun s f =>
      let levelName := ctx (flagKey (flagName f))
      if levelName ≠ [] then { s with levels := set s.levels (flagName f) (byName levelName) } else s) s).levels n =
      if n ∈ fs.map flagName ∧ ctx (flagKey n) ≠ [] then some (byName (ctx (flagKey n))) else s.levels n := by
    intro fs
    induction fs with
    | nil => intro s; simp
    | cons f fs ih =>
      intro s
      rw [List.foldl_cons, ih]
      by_cases h1 : n ∈ fs.map flagName ∧ ctx (flagKey n) ≠ []
      · rw [if_pos h1, if_pos ⟨List.mem_cons_of_mem _ h1.1, h1.2⟩]
      · rw [if_neg h1]
        by_cases h2 : n = flagName f
        · subst h2
          by_cases h3 : ctx (flagKey (flagName f)) = []
          · simp [h3]
          · simp [h3, set]
        · by_cases h3 : ctx (flagKey (flagName f)) = []
          · simp only [h3, ne_eq, not_true_eq_false, if_false]
            rw [if_neg]; rintro ⟨h4, h5⟩; exact h1 ⟨by simpa [h2] using h4, h5⟩
          · simp only [ne_eq, h3, not_false_eq_true, if_true, set, h2, if_false]
            rw [if_neg]; rintro ⟨h4, h5⟩; exact h1 ⟨by simpa [h2] using h4, h5⟩
  have hl : (handleFlags byName ctx init).levels n =
      if n ∈ loggingFlags.map flagName ∧ ctx (flagKey n) ≠ [] then some (byName (ctx (flagKey n))) else none := by
    have := key loggingFlags init
    unfold handleFlags
    simp only
    split <;> exact this
  have hm : loggingFlags.map flagName = ["comm-logging".toList, "play-logging".toList, "shed-logging".toList,
      "ssh-logging".toList, "time-logging".toList] := by decide
  rw [hl, hm]
  by_cases hn : n ∈ ["comm-logging".toList, "play-logging".toList, "shed-logging".toList, "ssh-logging".toList,
      "time-logging".toList]
  · have hk : ∀ n ∈ ["comm-logging".toList, "play-logging".toList, "shed-logging".toList, "ssh-logging".toList,
      "time-logging".toList], flagKey n = n := by decide
    rw [hk n hn]
  · rw [if_neg (fun h => hn h.1), if_neg (fun h => hn h.1)]

/-- C50, where it holds: --logging sets the level of all loggers. -/
theorem C50_default_partial (byName : List Char → Level) (ctx : List Char → List Char) (name : List Char)
    (hn : name ∈ ["comm".toList, "play".toList, "shed".toList, "ssh".toList, "time".toList])
    (hd : ctx "logging".toList ≠ []) :
    cutoffLevel (handleFlags byName ctx init) name = byName (ctx "logging".toList) := by
  rw [C50_flags_ineffective byName ctx name hn, if_neg hd]

section examples
def asciiLower (c : Char) : Char := if 'A' ≤ c ∧ c ≤ 'Z' then Char.ofNat (c.toNat + 32) else c
theorem asciiLower_ok : LowersAscii asciiLower := by
  refine ⟨fun c h1 h2 => by simp [asciiLower, h1, h2], fun c h1 h2 => ?_⟩
  unfold asciiLower
  rw [if_neg]
  rintro ⟨_, h3⟩
  have a : 97 ≤ c.toNat := h1
  have b : c.toNat ≤ 90 := h3
  omega
/-- The order of the iteration may be any, for instance the reverse one. -/
example : levelByName asciiLower levelNames.reverse ['d', 'B', 'g'] = 1 :=
  (C49_level_by_name asciiLower asciiLower_ok levelNames.reverse levelNames.reverse_perm ['d', 'B', 'g']).1 1 "DEBUG".toList
    "DBG".toList (by decide) (.inr (by decide))
/-- With --comm-logging=trace the logger comm still uses level info. -/
example : cutoffLevel (handleFlags (levelByName asciiLower levelNames)
    (fun k => if k = "comm-logging".toList then "trace".toList else []) init) "comm".toList = info := by
  rw [C50_flags_ineffective _ _ _ (by decide)]
  rfl
/-- A message with a placeholder. -/
example : (Writer.error, "[ERR] [ssh ] now: {date}\n".toList) ∈
    log init "ssh".toList "{date}".toList "now".toList 4 := by decide
end examples

end MS.Logging
