import Verif.Model.Auth
/-!
# Property C53: SSH authentication
-/
namespace MS.Auth

variable {K : Type} (parse : Bytes → Option K) (marshal : K → Bytes)

def Attempt.user : Attempt K → Bytes
  | .password u _ => u
  | .key u _ => u
  | .other u => u

/-- Specification: the password that the table holds for a user. -/
def HasPassword (users : Users) (user password : Bytes) : Prop :=
  ∃ auth, users user = some auth ∧ auth.password = password ∧ password ≠ []

/-- Specification: the key that the table holds for a user, as the bytes that represent it. -/
def HasKey (users : Users) (user : Bytes) (key : K) : Prop :=
  ∃ auth stored, users user = some auth ∧ auth.pubKey ≠ [] ∧ parse auth.pubKey = some stored ∧ marshal stored = marshal key

/-- C53: passwords -/
theorem C53_password (users : Users) (user password : Bytes) :
    passwordOk users user password = true ↔ HasPassword users user password := by
  unfold passwordOk HasPassword
  cases users user with
  | none => simp
  | some auth =>
    simp only [Option.some.injEq, exists_eq_left']
    split
    · rename_i h
      exact ⟨fun _ => ⟨h.2, h.2 ▸ h.1⟩, fun _ => rfl⟩
    · rename_i h
      refine ⟨fun e => by simp at e, fun e => absurd ⟨?_, e.1⟩ h⟩
      rw [e.1]; exact e.2

/-- C53: keys -/
theorem C53_key (users : Users) (user : Bytes) (key : K) :
    keyOk parse marshal users user key = true ↔ HasKey parse marshal users user key := by
  unfold keyOk HasKey
  cases users user with
  | none => simp
  | some auth =>
    simp only [Option.some.injEq]
    by_cases h : auth.pubKey = []
    · rw [if_pos (by simp [h])]
      refine ⟨fun e => by simp at e, fun ⟨a, s, e, h', _⟩ => absurd (e ▸ h) h'⟩
    · rw [if_neg (by simpa [List.length_eq_zero_iff] using h)]
      cases hp : parse auth.pubKey with
      | none =>
        refine ⟨fun e => by simp at e, ?_⟩
        rintro ⟨a, s, rfl, _, hs, _⟩
        rw [hp] at hs; simp at hs
      | some k =>
        simp only
        constructor
        · intro e
          split at e
          · rename_i hm; exact ⟨auth, k, rfl, h, hp, hm.symm⟩
          · simp at e
        · rintro ⟨a, s, rfl, _, hs, hm⟩
          rw [hp] at hs; injection hs with hs; subst hs
          rw [if_pos hm.symm]

/-- Specification: the attempt shows what the table holds. -/
def Shows (users : Users) : Attempt K → Prop
  | .password u p => HasPassword users u p
  | .key u k => HasKey parse marshal users u k
  | .other _ => False

theorem accepts_iff (users : Users) (a : Attempt K) : accepts parse marshal users a = true ↔ Shows parse marshal users a := by
  cases a with
  | password u p => exact C53_password users u p
  | key u k => exact C53_key parse marshal users u k
  | other u => simp [accepts, Shows]

/-- C53: however many attempts a client makes, it is logged in exactly if one of them is right, and then by the first that
is. -/
theorem C53_login (users : Users) (attempts : List (Attempt K)) (a : Attempt K) :
    login parse marshal users attempts = some a ↔
      Shows parse marshal users a ∧ ∃ before after, attempts = before ++ a :: after ∧ ∀ b ∈ before, ¬ Shows parse marshal users b := by
  induction attempts with
  | nil => simp [login]
  | cons x xs ih =>
    rw [login]
    by_cases h : accepts parse marshal users x = true
    · rw [if_pos h]
      have hx := (accepts_iff parse marshal users x).1 h
      constructor
      · rintro ⟨⟩; exact ⟨hx, [], xs, rfl, by simp⟩
      · rintro ⟨_, before, after, e, hb⟩
        cases before with
        | nil => simp at e; rw [e.1]
        | cons b bs => simp at e; exact absurd (e.1 ▸ hx) (hb b (by simp))
    · rw [if_neg h, ih]
      have hx : ¬ Shows parse marshal users x := fun e => h ((accepts_iff parse marshal users x).2 e)
      constructor
      · rintro ⟨ha, before, after, rfl, hb⟩
        exact ⟨ha, x :: before, after, rfl, by simpa using ⟨hx, hb⟩⟩
      · rintro ⟨ha, before, after, e, hb⟩
        cases before with
        | nil => simp at e; exact absurd (e.1 ▸ ha) hx
        | cons b bs =>
          simp at e
          exact ⟨ha, bs, after, e.2, fun c hc => hb c (List.mem_cons_of_mem _ hc)⟩

/-- C53: users who are not in the table, or have neither password nor key there, are never logged in. -/
theorem C53_no_credentials (users : Users) (user : Bytes)
    (h : ∀ auth, users user = some auth → auth.password = [] ∧ auth.pubKey = []) (attempts : List (Attempt K)) (a : Attempt K)
    (hl : login parse marshal users attempts = some a) : a.user ≠ user := by
  intro e
  have hs := ((C53_login parse marshal users attempts a).1 hl).1
  cases a with
  | password u p =>
    obtain ⟨auth, h1, h2, h3⟩ := hs
    exact h3 (h2 ▸ (h auth (e ▸ h1)).1)
  | key u k =>
    obtain ⟨auth, s, h1, h2, _⟩ := hs
    exact h2 (h auth (e ▸ h1)).2
  | other u => exact hs

/-- C53: one user's credentials do not let anyone in under another name. -/
theorem C53_own_credentials (users users' : Users) (user : Bytes) (h : users user = users' user) (a : Attempt K) (ha : a.user = user) :
    accepts parse marshal users a = accepts parse marshal users' a := by
  cases a with
  | password u p => simp only [Attempt.user] at ha; subst ha; simp [accepts, passwordOk, h]
  | key u k => simp only [Attempt.user] at ha; subst ha; simp [accepts, keyOk, h]
  | other u => rfl

/-- C53, the users file: the last member with a user's name counts, as a whole. -/
theorem C53_users_file (members : List (Bytes × Option UserAuth)) (user : Bytes) (auth : UserAuth) :
    readUsers members user = some auth ↔
      ∃ before m after, members = before ++ (user, m) :: after ∧ (∀ x ∈ after, x.1 ≠ user) ∧ auth = m.getD ⟨[], []⟩ := by
  unfold readUsers
  suffices H : ∀ (l : List (Bytes × Option UserAuth)) (t : Users),
      l.foldl (fun t m u => if u = m.1 then some (m.2.getD ⟨[], []⟩) else t u) t user = some auth ↔
      (∃ before m after, l = before ++ (user, m) :: after ∧ (∀ x ∈ after, x.1 ≠ user) ∧ auth = m.getD ⟨[], []⟩) ∨
      ((∀ x ∈ l, x.1 ≠ user) ∧ t user = some auth) by
    rw [H]; simp
  intro l
  induction l with
  | nil => intro t; simp
  | cons x xs ih =>
    intro t
    rw [List.foldl_cons, ih]
    constructor
    · rintro (⟨b, m, a, rfl, h1, h2⟩ | ⟨h1, h2⟩)
      · exact Or.inl ⟨x :: b, m, a, rfl, h1, h2⟩
      · by_cases hx : user = x.1
        · rw [if_pos hx] at h2
          injection h2 with h2
          exact Or.inl ⟨[], x.2, xs, by simp [hx], h1, h2.symm⟩
        · rw [if_neg hx] at h2
          refine Or.inr ⟨?_, h2⟩
          intro y hy
          rcases List.mem_cons.1 hy with rfl | hy
          · exact fun e => hx e.symm
          · exact h1 y hy
    · rintro (⟨b, m, a, e, h1, h2⟩ | ⟨h1, h2⟩)
      · cases b with
        | nil =>
          simp at e
          obtain ⟨rfl, rfl⟩ := e
          exact Or.inr ⟨h1, by simp [h2]⟩
        | cons b bs => simp at e; exact Or.inl ⟨bs, m, a, e.2, h1, h2⟩
      · refine Or.inr ⟨fun y hy => h1 y (List.mem_cons_of_mem _ hy), ?_⟩
        rw [if_neg (fun e => h1 x (by simp) e.symm)]
        exact h2

section examples
/-- ann has a password, bob a key, eve nothing; a second entry takes the key from carl -/
def table : Users := readUsers [([97], some ⟨[1], []⟩), ([98], some ⟨[], [7]⟩), ([101], none), ([99], some ⟨[], [7]⟩), ([99], some ⟨[2], []⟩)]
/-- keys are bytes; only [7] and [8] are well-formed -/
def exParse (b : Bytes) : Option Bytes := if b = [7] ∨ b = [8] then some b else none
example : login exParse id table [.other [101], .password [101] [], .password [97] [2], .password [97] [1]] =
    some (.password [97] [1]) := rfl
example : HasKey exParse id table [98] [7] := ⟨⟨[], [7]⟩, [7], rfl, by decide, rfl, rfl⟩
example : accepts exParse id table (.key [98] [8]) = false ∧ accepts exParse id table (.key [99] [7]) = false := by decide
example (attempts : List (Attempt Bytes)) (a : Attempt Bytes) (h : login exParse id table attempts = some a) : a.user ≠ [101] :=
  C53_no_credentials exParse id table [101] (by intro auth h; have : table [101] = some ⟨[], []⟩ := rfl; rw [this] at h; injection h with h; subst h; simp) attempts a h
end examples

end MS.Auth
