import Verif.Spec.Config
import Verif.Props.Utils
import Verif.Lemmas.LogStream
/-!
# C113: values read from the configuration
-/
namespace Verif.Props.Config

open Verif.Config Verif.Spec.Config

variable {α K : Type}

theorem digits_eq (n : ℕ) : Log.digits n = (toString n).toList := by
  have h : Log.digits n = Nat.toDigits 10 n := by
    induction n using Nat.strongRecOn with
    | _ n ih =>
      have hd : ∀ d, d < 10 → Char.ofNat (48 + d) = d.digitChar := by decide
      rw [Log.digits, Nat.toDigits_eq_if (by norm_num)]
      split
      · rename_i h; rw [hd n h]
      · rename_i h; rw [ih (n / 10) (by omega), hd _ (Nat.mod_lt _ (by norm_num))]
  rw [h]
  simp [Nat.toString_eq_ofList_toDigits]

theorem find_some {k : Key} {l : List (Key × Node)} {n : Node} :
    find k l = some n ↔ ∃ l₁ l₂, l = l₁ ++ (k, n) :: l₂ ∧ ∀ p ∈ l₁, p.1 ≠ k := by
  induction l with
  | nil => simp [find]
  | cons p l ih =>
    obtain ⟨k', n'⟩ := p
    rw [find]
    split
    · rename_i h
      subst h
      constructor
      · intro h; cases h; exact ⟨[], l, rfl, by simp⟩
      · rintro ⟨l₁, l₂, h1, h2⟩
        cases l₁ with
        | nil => simp at h1; rw [h1.1]
        | cons q l₁ =>
          simp at h1
          exact absurd (by rw [← h1.1]) (h2 q (by simp))
    · rename_i h
      rw [ih]
      constructor
      · rintro ⟨l₁, l₂, h1, h2⟩
        refine ⟨(k', n') :: l₁, l₂, by rw [h1]; rfl, ?_⟩
        intro p hp
        rcases List.mem_cons.1 hp with rfl | hp
        · exact h
        · exact h2 p hp
      · rintro ⟨l₁, l₂, h1, h2⟩
        cases l₁ with
        | nil => simp at h1; exact absurd h1.1.1 h
        | cons q l₁ =>
          simp at h1
          exact ⟨l₁, l₂, h1.2, fun p hp => h2 p (by simp [hp])⟩

theorem findIdx_some {k : Key} {l : List Node} {n : Node} (i : ℕ) :
    findIdx k l i = some n ↔ ∃ l₁ l₂, l = l₁ ++ n :: l₂ ∧ Log.digits (i + l₁.length) = k := by
  induction l generalizing i with
  | nil => simp [findIdx]
  | cons p l ih =>
    rw [findIdx]
    split
    · rename_i h
      subst h
      constructor
      · intro h; cases h; exact ⟨[], l, rfl, by simp⟩
      · rintro ⟨l₁, l₂, h1, h2⟩
        have := Log.digits_inj h2
        have : l₁ = [] := List.length_eq_zero_iff.1 (by omega)
        subst this
        simp at h1; rw [h1.1]
    · rename_i h
      rw [ih]
      constructor
      · rintro ⟨l₁, l₂, h1, h2⟩
        exact ⟨p :: l₁, l₂, by rw [h1]; rfl, by rw [← h2]; congr 1; simp; omega⟩
      · rintro ⟨l₁, l₂, h1, h2⟩
        cases l₁ with
        | nil => exact absurd h2 h
        | cons q l₁ =>
          simp at h1
          exact ⟨l₁, l₂, h1.2, by rw [← h2]; congr 1; simp; omega⟩

/-- One name leads from `n` where `node[key]` leads. -/
theorem at_cons {n m : Node} {k : Key} {path : List Key} :
    At n (k :: path) m ↔ ∃ p, n.sub k = some (some p) ∧ At p path m := by
  constructor
  · intro h
    cases h with
    | entry l₁ l₂ _ p _ _ h1 h2 => exact ⟨p, by simp [Node.sub]; exact find_some.2 ⟨l₁, l₂, rfl, h1⟩, h2⟩
    | index l₁ l₂ p _ _ h2 =>
      exact ⟨p, by simp only [Node.sub]; rw [(findIdx_some 0).2 ⟨l₁, l₂, rfl, by rw [digits_eq, Nat.zero_add]⟩], h2⟩
  · rintro ⟨p, h1, h2⟩
    cases n with
    | null => simp [Node.sub] at h1
    | scalar t => simp [Node.sub] at h1
    | seq l =>
      simp only [Node.sub, Option.some.injEq] at h1
      obtain ⟨l₁, l₂, rfl, rfl⟩ := (findIdx_some 0).1 h1
      rw [Nat.zero_add, digits_eq]
      exact At.index l₁ l₂ p m path h2
    | map l =>
      simp only [Node.sub, Option.some.injEq] at h1
      obtain ⟨l₁, l₂, rfl, h3⟩ := find_some.1 h1
      exact At.entry l₁ l₂ k p m path h3 h2

/-- A path leads to at most one node. -/
theorem at_unique {n a b : Node} {path : List Key} (ha : At n path a) (hb : At n path b) : a = b := by
  induction path generalizing n with
  | nil => cases ha; cases hb; rfl
  | cons k path ih =>
    obtain ⟨p, h1, h2⟩ := at_cons.1 ha
    obtain ⟨q, h3, h4⟩ := at_cons.1 hb
    rw [h1] at h3
    cases h3
    exact ih h2 h4

theorem blocked_cons {n p : Node} {k : Key} {path : List Key} (h : n.sub k = some (some p)) (hb : Blocked p path) :
    Blocked n (k :: path) := by
  obtain ⟨before, k', after, text, rfl, h2⟩ := hb
  exact ⟨k :: before, k', after, text, rfl, at_cons.2 ⟨p, h, h2⟩⟩

theorem sub_none {n : Node} {k : Key} : n.sub k = none ↔ ∃ t, n = .scalar t := by
  cases n <;> simp [Node.sub]

/-- The loop, all outcomes. -/
theorem getLoop_cases (conv : Node → Conv α) (required : Bool) (old : α) (root : Node) (path : List Key) (hp : path ≠ []) :
    (∃ n, At root path n ∧ getLoop conv required old root path =
      match conv n with | .ok v => .ret true v | .bad => .ret false old | .thrown => .thrown) ∨
    ((¬ ∃ n, At root path n) ∧ Blocked root path ∧ getLoop conv required old root path = .thrown) ∨
    ((¬ ∃ n, At root path n) ∧ ¬ Blocked root path ∧
      getLoop conv required old root path = if required then .abort else .ret false old) := by
  induction path generalizing root with
  | nil => exact absurd rfl hp
  | cons k ks ih =>
    rw [getLoop.eq_def]
    dsimp only
    rcases h : root.sub k with _ | _ | m
    · right; left
      obtain ⟨t, rfl⟩ := sub_none.1 h
      refine ⟨?_, ⟨[], k, ks, t, rfl, At.here _⟩, rfl⟩
      rintro ⟨n, hn⟩
      obtain ⟨p, h1, -⟩ := at_cons.1 hn
      simp [Node.sub] at h1
    · right; right
      have hno : ¬ ∃ n, At root (k :: ks) n := by
        rintro ⟨n, hn⟩
        obtain ⟨p, h1, -⟩ := at_cons.1 hn
        rw [h] at h1; cases h1
      refine ⟨hno, ?_, rfl⟩
      rintro ⟨before, k', after, text, h1, h2⟩
      cases before with
      | nil => cases h2; simp [Node.sub] at h
      | cons b before =>
        simp at h1
        obtain ⟨p, h3, -⟩ := at_cons.1 h2
        rw [← h1.1, h] at h3; cases h3
    · cases ks with
      | nil => left; exact ⟨m, at_cons.2 ⟨m, h, At.here _⟩, rfl⟩
      | cons k2 ks =>
        have hiff : ∀ n, At root (k :: k2 :: ks) n ↔ At m (k2 :: ks) n := by
          intro n
          rw [at_cons]
          constructor
          · rintro ⟨p, h1, h2⟩; rw [h] at h1; cases h1; exact h2
          · intro h2; exact ⟨m, h, h2⟩
        have hb : Blocked root (k :: k2 :: ks) → Blocked m (k2 :: ks) := by
          rintro ⟨before, k', after, text, h1, h2⟩
          cases before with
          | nil => cases h2; simp [Node.sub] at h
          | cons b before =>
            simp at h1
            obtain ⟨p, h3, h4⟩ := at_cons.1 h2
            rw [← h1.1, h] at h3; cases h3
            exact ⟨before, k', after, text, h1.2, h4⟩
        rcases ih m (by simp) with ⟨n, h1, h2⟩ | ⟨h1, h2, h3⟩ | ⟨h1, h2, h3⟩
        · left; exact ⟨n, (hiff n).2 h1, h2⟩
        · right; left
          exact ⟨by simpa only [hiff] using h1, blocked_cons h h2, h3⟩
        · right; right
          exact ⟨by simpa only [hiff] using h1, fun hh => h2 (hb hh), h3⟩

theorem names_ne {path : List Key} (h : Names path) : path ≠ [] := by
  obtain ⟨-, k, h, -⟩ := h
  rintro rfl
  simp at h

theorem joined_flat (path : List Key) (h : path ≠ []) : joined path ++ ['/'] = path.flatMap (fun k => k ++ ['/']) := by
  induction path with
  | nil => exact absurd rfl h
  | cons a l ih =>
    cases l with
    | nil => simp [joined]
    | cons b l =>
      have := ih (by simp)
      simp only [joined] at this ⊢
      rw [List.intercalate_cons_cons, List.flatMap_cons, ← this]
      simp

/-- The key of a path is split into the names of the path. -/
theorem split_joined {path : List Key} (h : Names path) : Utils.splitString (joined path) '/' = path := by
  obtain ⟨h1, h2⟩ := Utils.C55_split (joined path) '/'
  refine Utils.C55_split_unique '/' _ _ h1 h.1 ?_
  rw [h2, ← joined_flat path (names_ne h)]
  obtain ⟨hs, k, hk, hne⟩ := h
  have hl : (joined path).getLast? = k.getLast? ∧ joined path ≠ [] := by
    obtain ⟨init, rfl⟩ : ∃ init, path = init ++ [k] := by
      obtain ⟨h, e⟩ := List.getLast?_eq_some_iff.1 hk
      exact ⟨_, e⟩
    have : joined (init ++ [k]) = init.flatMap (fun k => k ++ ['/']) ++ k := by
      have e := joined_flat (init ++ [k]) (by simp)
      simp only [List.flatMap_append, List.flatMap_cons, List.flatMap_nil, List.append_nil] at e
      rw [← List.append_assoc] at e
      exact List.append_cancel_right e
    rw [this]
    constructor
    · rw [List.getLast?_append_of_ne_nil _ hne]
    · simp [hne]
  rw [if_neg]
  rintro (h | h)
  · exact hl.2 h
  · rw [hl.1] at h
    exact hs k (List.mem_of_getLast? hk) (List.mem_of_getLast? h)

/-- **C113.** A key whose path leads to a value of the type asked for is found, with that value. -/
theorem C113_found (conv : Node → Conv α) (cfg n : Node) (path : List Key) (required : Bool) (old v : α)
    (hn : Names path) (h : At cfg path n) (hv : conv n = .ok v) : getVal conv cfg (joined path) required old = .ret true v := by
  rw [getVal, split_joined hn]
  rcases getLoop_cases conv required old cfg path (names_ne hn) with ⟨m, h1, h2⟩ | ⟨h1, -⟩ | ⟨h1, -⟩
  · rw [h2, at_unique h1 h, hv]
  · exact absurd ⟨n, h⟩ h1
  · exact absurd ⟨n, h⟩ h1

/-- **C113.** Nothing else is ever found, for any key; without a value the variable keeps what it
had. -/
theorem C113_sound (conv : Node → Conv α) (cfg : Node) (key : Key) (required : Bool) (old v : α) (b : Bool)
    (h : getVal conv cfg key required old = .ret b v) :
    if b then ∃ n, At cfg (Utils.splitString key '/') n ∧ conv n = .ok v else v = old := by
  rw [getVal] at h
  by_cases hp : Utils.splitString key '/' = []
  · rw [hp, getLoop] at h; cases h; simp
  rcases getLoop_cases conv required old cfg _ hp with ⟨m, h1, h2⟩ | ⟨-, -, h2⟩ | ⟨-, -, h2⟩
  · rw [h2] at h
    rcases hc : conv m with v' | _ | _ <;> rw [hc] at h <;> cases h
    · exact ⟨m, h1, hc⟩
    · simp
  · rw [h2] at h; cases h
  · rw [h2] at h
    cases required <;> cases h
    simp

/-- **C113.** A missing key: the program does not go on if the value is required; otherwise the
default stays, unless a scalar is in the way. -/
theorem C113_missing (conv : Node → Conv α) (cfg : Node) (path : List Key) (old : α)
    (hn : Names path) (h : ¬ ∃ n, At cfg path n) :
    (∀ b v, getVal conv cfg (joined path) true old ≠ .ret b v) ∧
    (¬ Blocked cfg path → getVal conv cfg (joined path) false old = .ret false old) ∧
    (Blocked cfg path → getVal conv cfg (joined path) false old = .thrown) := by
  simp only [getVal, split_joined hn]
  refine ⟨?_, ?_, ?_⟩
  · intro b v
    rcases getLoop_cases conv true old cfg path (names_ne hn) with ⟨m, h1, -⟩ | ⟨-, -, h2⟩ | ⟨-, -, h2⟩
    · exact absurd ⟨m, h1⟩ h
    · rw [h2]; simp
    · rw [h2]; simp
  · intro hb
    rcases getLoop_cases conv false old cfg path (names_ne hn) with ⟨m, h1, -⟩ | ⟨-, h2, -⟩ | ⟨-, -, h2⟩
    · exact absurd ⟨m, h1⟩ h
    · exact absurd h2 hb
    · rw [h2]; simp
  · intro hb
    rcases getLoop_cases conv false old cfg path (names_ne hn) with ⟨m, h1, -⟩ | ⟨-, -, h2⟩ | ⟨-, h2, -⟩
    · exact absurd ⟨m, h1⟩ h
    · exact h2
    · exact absurd hb h2

/-! ### Matrices -/

theorem elems_num (parse : List Char → Option K) (ts : List (List Char)) (l : List K) (h : ts.map parse = l.map some) :
    elems (asNum parse) (ts.map Node.scalar) = some l := by
  induction ts generalizing l with
  | nil => cases l with
    | nil => rfl
    | cons a l => simp at h
  | cons t ts ih => cases l with
    | nil => simp at h
    | cons a l =>
      simp only [List.map_cons, List.cons.injEq] at h
      simp [elems, asNum, h.1, ih l h.2]

theorem asVec_list {parse : List Char → Option K} {n : Node} {l : List K} (h : IsList parse n l) :
    asVec (asNum parse) n = .ok l := by
  obtain ⟨ts, rfl, h⟩ := h
  simp [asVec, elems_num parse ts l h]

/-- **C113.** A list with enough numbers is read as the rows of the matrix. -/
theorem C113_matrix (parse : List Char → Option K) (cfg n : Node) (path : List Key) (required : Bool) (r c : ℕ)
    (old : Fin r → Fin c → K) (l : List K) (hn : Names path) (h : At cfg path n) (hl : IsList parse n l)
    (hlen : r * c ≤ l.length) :
    ∃ m, getMat parse cfg (joined path) required old = .ret true m ∧ ∀ i j, l[i.1 * c + j.1]? = some (m i j) := by
  rw [getMat, C113_found _ cfg n path required [] l hn h (asVec_list hl)]
  dsimp only
  rw [dif_pos hlen]
  exact ⟨_, rfl, fun i j => by simp⟩

/-- **C113, violated.** A list with too few numbers makes `get` read beyond the end of its storage:
every key, every matrix, required or not. -/
theorem C113_short_violated (parse : List Char → Option K) (cfg n : Node) (path : List Key) (required : Bool) (r c : ℕ)
    (old : Fin r → Fin c → K) (l : List K) (hn : Names path) (h : At cfg path n) (hl : IsList parse n l)
    (hlen : l.length < r * c) : getMat parse cfg (joined path) required old = .ub := by
  rw [getMat, C113_found _ cfg n path required [] l hn h (asVec_list hl)]
  dsimp only
  rw [dif_neg (by omega)]

/-- **C113, violated.** A required matrix whose entry is there but is not a list (a number, a map)
is not read, and the program goes on with whatever the variable held before. -/
theorem C113_required_violated (parse : List Char → Option K) (cfg n : Node) (path : List Key) (r c : ℕ)
    (old : Fin r → Fin c → K) (hn : Names path) (h : At cfg path n) (hs : ∀ l, n ≠ .seq l) :
    getMat parse cfg (joined path) true old = .ret false old := by
  have : getVal (asVec (asNum parse)) cfg (joined path) true [] = .ret false [] := by
    rw [getVal, split_joined hn]
    rcases getLoop_cases (asVec (asNum parse)) true [] cfg path (names_ne hn) with ⟨m, h1, h2⟩ | ⟨h1, -⟩ | ⟨h1, -⟩
    · rw [h2, at_unique h1 h]
      cases n with
      | seq l => exact absurd rfl (hs l)
      | _ => rfl
    · exact absurd ⟨n, h⟩ h1
    · exact absurd ⟨n, h⟩ h1
  rw [getMat, this]

/-- The same for a number that is not one: a required value is silently left as it was. -/
theorem C113_number_violated (parse : List Char → Option K) (cfg : Node) (path : List Key) (t : List Char)
    (old : K) (hn : Names path) (h : At cfg path (.scalar t)) (ht : parse t = none) :
    getVal (asNum parse) cfg (joined path) true old = .ret false old := by
  rw [getVal, split_joined hn]
  rcases getLoop_cases (asNum parse) true old cfg path (names_ne hn) with ⟨m, h1, h2⟩ | ⟨h1, -⟩ | ⟨h1, -⟩
  · rw [h2, at_unique h1 h]; simp [asNum, ht]
  · exact absurd ⟨_, h⟩ h1
  · exact absurd ⟨_, h⟩ h1

/-- The full property: a required value that `get` returns from was read from the file. -/
def C113_statement : Prop :=
  ∀ (parse : List Char → Option ℚ) (cfg : Node) (path : List Key), Names path → ∀ (n : ℕ) (old : EVec ℚ n) (b : Bool) (v : EVec ℚ n),
    getMat parse cfg (joined path) true old = .ret b v → b = true

theorem flatMap_get {β γ : Type} (f : β → List γ) (c : ℕ) (hf : ∀ b, (f b).length = c) (l : List β) (i j : ℕ)
    (hi : i < l.length) (hj : j < c) : (l.flatMap f)[i * c + j]? = (f l[i])[j]? := by
  induction l generalizing i with
  | nil => simp at hi
  | cons a l ih =>
    rw [List.flatMap_cons]
    cases i with
    | zero => rw [List.getElem?_append_left (by rw [hf]; omega)]; simp
    | succ i =>
      rw [List.getElem?_append_right (by rw [hf, Nat.succ_mul]; omega), hf]
      have : (i + 1) * c + j - c = i * c + j := by rw [Nat.succ_mul]; omega
      rw [this, ih i (by simpa using hi)]
      simp

/-- The entries of a matrix by rows. -/
def rowMajor {r c : ℕ} (m : Fin r → Fin c → K) : List K :=
  (List.finRange r).flatMap fun i => (List.finRange c).map fun j => m i j

theorem rowMajor_length {r c : ℕ} (m : Fin r → Fin c → K) : (rowMajor m).length = r * c := by
  simp [rowMajor, List.length_flatMap]

theorem rowMajor_get {r c : ℕ} (m : Fin r → Fin c → K) (i : Fin r) (j : Fin c) :
    (rowMajor m)[i.1 * c + j.1]? = some (m i j) := by
  rw [rowMajor, flatMap_get _ c (by simp) _ i.1 j.1 (by simp) j.2]
  simp

theorem encode_list (parse : List Char → Option K) (put : K → List Char) (hp : ∀ x, parse (put x) = some x) {r c : ℕ}
    (m : Fin r → Fin c → K) : IsList parse (encode put m) (rowMajor m) := by
  refine ⟨(rowMajor m).map put, ?_, ?_⟩
  · simp [encode, rowMajor, List.map_flatMap, Function.comp_def]
  · simp [Function.comp_def, hp]

theorem decodeLoop_list (parse : List Char → Option K) (ts : List (List Char)) (l : List K) (h : ts.map parse = l.map some)
    (n : ℕ) : decodeLoop parse (ts.map Node.scalar) n = if n ≤ l.length then .ok (l.take n) else .bad := by
  induction ts generalizing l n with
  | nil =>
    cases l with
    | nil => cases n <;> simp [decodeLoop]
    | cons a l => simp at h
  | cons t ts ih =>
    cases l with
    | nil => simp at h
    | cons a l =>
      simp only [List.map_cons, List.cons.injEq] at h
      cases n with
      | zero => simp [decodeLoop]
      | succ n =>
        rw [List.map_cons, decodeLoop, ih l h.2 n]
        by_cases hn : n ≤ l.length
        · simp [asNum, h.1, hn]
        · simp [asNum, h.1, hn]

/-- **C113.** A matrix written to a configuration is read back by both ways of reading. -/
theorem C113_matrix_back (parse : List Char → Option K) (put : K → List Char) (hp : ∀ x, parse (put x) = some x)
    (cfg : Node) (path : List Key) (required : Bool) (r c : ℕ) (m old : Fin r → Fin c → K) (hn : Names path)
    (h : At cfg path (encode put m)) :
    getMat parse cfg (joined path) required old = .ret true m ∧ decode parse r c (encode put m) = .ok (rowMajor m) := by
  have hl := encode_list parse put hp m
  constructor
  · obtain ⟨m', h1, h2⟩ := C113_matrix parse cfg _ path required r c old _ hn h hl (by rw [rowMajor_length])
    rw [h1]
    congr 1
    funext i j
    have := h2 i j
    rw [rowMajor_get] at this
    exact (Option.some.inj this).symm
  · obtain ⟨ts, h1, h2⟩ := hl
    rw [h1, decode, decodeLoop_list parse ts _ h2, rowMajor_length, if_pos le_rfl, List.take_of_length_le]
    rw [rowMajor_length]

/-- **C113.** `convert<Matrix>::decode`, unlike `get`, notices that a list is too short. -/
theorem C113_decode_short (parse : List Char → Option K) (n : Node) (r c : ℕ) (l : List K) (hl : IsList parse n l)
    (hlen : l.length < r * c) : decode parse r c n = .bad := by
  obtain ⟨ts, rfl, h⟩ := hl
  rw [decode, decodeLoop_list parse ts l h, if_neg (by omega)]

/-! ### The post processor -/

/-- The file has the numbers `v` as a list under the path. -/
def Holds (parse : List Char → Option K) (cfg : Node) (path : List Key) {n : ℕ} (v : EVec K n) : Prop :=
  ∃ node, At cfg path node ∧ IsList parse node (List.ofFn fun i => v i 0)

theorem getMat_holds {parse : List Char → Option K} {cfg : Node} {path : List Key} {n : ℕ} {v : EVec K n}
    (hn : Names path) (h : Holds parse cfg path v) (required : Bool) (old : EVec K n) :
    getMat parse cfg (joined path) required old = .ret true v := by
  obtain ⟨node, h1, h2⟩ := h
  obtain ⟨m, h3, h4⟩ := C113_matrix parse cfg node path required n 1 old _ hn h1 h2 (by simp)
  rw [h3]
  congr 1
  funext i j
  have := h4 i j
  have hj : j = 0 := Subsingleton.elim _ _
  subst hj
  simp at this
  exact this.symm

theorem names_pair {k name : Key} (hk : '/' ∉ k) (hn : '/' ∉ name) (h0 : name ≠ []) : Names [k, name] :=
  ⟨by simp [hk, hn], name, rfl, h0⟩

theorem joined_pair (k name : Key) : joined [k, name] = k ++ '/' :: name := by simp [joined]

theorem getMat_pair {parse : List Char → Option K} {cfg : Node} {k : Key} (hk : '/' ∉ k) (full : Key) (name : Key)
    (hf : full = '/' :: name) (hn : '/' ∉ name) (h0 : name ≠ []) {n : ℕ} {v : EVec K n}
    (h : Holds parse cfg [k, name] v) (old : EVec K n) : getMat parse cfg (k ++ full) true old = .ret true v := by
  rw [hf, ← joined_pair]
  exact getMat_holds (names_pair hk hn h0) h true old

/-- **C113.** The covariances of the post processor: a file with the eleven lists gives the squares
of its numbers, whatever was in the memory of the program. -/
theorem C113_covariance [Mul K] (parse : List Char → Option K) (cfg : Node) (k : Key) (hk : '/' ∉ k) (s : ProcCov K)
    (h1 : Holds parse cfg [k, "rotation".toList] s.rot) (h2 : Holds parse cfg [k, "translation".toList] s.trans)
    (h3 : Holds parse cfg [k, "vel".toList] s.vel) (h4 : Holds parse cfg [k, "acc_bias".toList] s.accBias)
    (h5 : Holds parse cfg [k, "gyro_bias".toList] s.gyroBias) (h6 : Holds parse cfg [k, "gps_clk".toList] s.gpsClk)
    (h7 : Holds parse cfg [k, "gal_clk".toList] s.galClk) (h8 : Holds parse cfg [k, "glo_clk".toList] s.gloClk)
    (h9 : Holds parse cfg [k, "p_b2g".toList] s.pB2g) (h10 : Holds parse cfg [k, "T_I2e".toList] s.TI2e)
    (h11 : Holds parse cfg [k, "sd".toList] s.sd) (mem : ProcCov K) :
    ∃ c, getStateCovariance parse cfg k mem = .ret true c ∧
      (∀ i j, c.rot i j = s.rot i j * s.rot i j) ∧ (∀ i j, c.trans i j = s.trans i j * s.trans i j) ∧
      (∀ i j, c.vel i j = s.vel i j * s.vel i j) ∧ (∀ i j, c.accBias i j = s.accBias i j * s.accBias i j) ∧
      (∀ i j, c.gyroBias i j = s.gyroBias i j * s.gyroBias i j) ∧ (∀ i j, c.gpsClk i j = s.gpsClk i j * s.gpsClk i j) ∧
      (∀ i j, c.galClk i j = s.galClk i j * s.galClk i j) ∧ (∀ i j, c.gloClk i j = s.gloClk i j * s.gloClk i j) ∧
      (∀ i j, c.pB2g i j = s.pB2g i j * s.pB2g i j) ∧ (∀ i j, c.TI2e i j = s.TI2e i j * s.TI2e i j) ∧
      (∀ i j, c.sd i j = s.sd i j * s.sd i j) := by
  refine ⟨⟨square s.rot, square s.trans, square s.vel, square s.accBias, square s.gyroBias, square s.gpsClk,
    square s.galClk, square s.gloClk, square s.pB2g, square s.TI2e, square s.sd⟩, ?_,
    fun _ _ => rfl, fun _ _ => rfl, fun _ _ => rfl, fun _ _ => rfl, fun _ _ => rfl, fun _ _ => rfl, fun _ _ => rfl,
    fun _ _ => rfl, fun _ _ => rfl, fun _ _ => rfl, fun _ _ => rfl⟩
  rw [getStateCovariance,
    getMat_pair hk _ _ (by decide +kernel) (by decide +kernel) (by decide +kernel) h1, Res.bind,
    getMat_pair hk _ _ (by decide +kernel) (by decide +kernel) (by decide +kernel) h2, Res.bind,
    getMat_pair hk _ _ (by decide +kernel) (by decide +kernel) (by decide +kernel) h3, Res.bind,
    getMat_pair hk _ _ (by decide +kernel) (by decide +kernel) (by decide +kernel) h4, Res.bind,
    getMat_pair hk _ _ (by decide +kernel) (by decide +kernel) (by decide +kernel) h5, Res.bind,
    getMat_pair hk _ _ (by decide +kernel) (by decide +kernel) (by decide +kernel) h6, Res.bind,
    getMat_pair hk _ _ (by decide +kernel) (by decide +kernel) (by decide +kernel) h7, Res.bind,
    getMat_pair hk _ _ (by decide +kernel) (by decide +kernel) (by decide +kernel) h8, Res.bind,
    getMat_pair hk _ _ (by decide +kernel) (by decide +kernel) (by decide +kernel) h9, Res.bind,
    getMat_pair hk _ _ (by decide +kernel) (by decide +kernel) (by decide +kernel) h10, Res.bind,
    getMat_pair hk _ _ (by decide +kernel) (by decide +kernel) (by decide +kernel) h11, Res.bind]

theorem bind_ret {α β : Type} {r : Res α} {f : α → Res β} {b : Bool} {v : β} (h : r.bind f = .ret b v) :
    ∃ c a, r = .ret c a ∧ f a = .ret b v := by
  cases r with
  | ret c a => exact ⟨c, a, rfl, h⟩
  | abort => cases h
  | thrown => cases h
  | ub => cases h

/-- The eleven lists of one of the two state deviations. -/
def HoldsCov (parse : List Char → Option K) (cfg : Node) (k : Key) (s : ProcCov K) : Prop :=
  Holds parse cfg [k, "rotation".toList] s.rot ∧ Holds parse cfg [k, "translation".toList] s.trans ∧
  Holds parse cfg [k, "vel".toList] s.vel ∧ Holds parse cfg [k, "acc_bias".toList] s.accBias ∧
  Holds parse cfg [k, "gyro_bias".toList] s.gyroBias ∧ Holds parse cfg [k, "gps_clk".toList] s.gpsClk ∧
  Holds parse cfg [k, "gal_clk".toList] s.galClk ∧ Holds parse cfg [k, "glo_clk".toList] s.gloClk ∧
  Holds parse cfg [k, "p_b2g".toList] s.pB2g ∧ Holds parse cfg [k, "T_I2e".toList] s.TI2e ∧
  Holds parse cfg [k, "sd".toList] s.sd

/-- **C113.** A file with all lists and `fix_and_hold_stdev` gives all the noise parameters of the
post processor, each from its own entry, whatever was in the memory of the program. -/
theorem C113_noise [Mul K] (parse : List Char → Option K) (cfg : Node) (P0 process : ProcCov K) (pp : EVec K 6)
    (obs : EVec K 2) (accel gyro : EVec K 3) (t : List Char) (x : K)
    (h1 : HoldsCov parse cfg "P0_stdev".toList P0) (h2 : HoldsCov parse cfg "process_stdev".toList process)
    (h3 : Holds parse cfg ["point_pos_stdev".toList] pp) (h4 : Holds parse cfg ["obs_stdev".toList] obs)
    (h5 : Holds parse cfg ["imu_stdev".toList, "accel".toList] accel)
    (h6 : Holds parse cfg ["imu_stdev".toList, "gyro".toList] gyro)
    (h7 : At cfg ["fix_and_hold_stdev".toList] (.scalar t)) (h8 : parse t = some x) (mem : Noise K) :
    ∃ v, readNoise parse cfg mem = .ret true v ∧
      (∀ i j, v.P0.rot i j = P0.rot i j * P0.rot i j) ∧ (∀ i j, v.P0.sd i j = P0.sd i j * P0.sd i j) ∧
      (∀ i j, v.process.rot i j = process.rot i j * process.rot i j) ∧
      (∀ i j, v.process.sd i j = process.sd i j * process.sd i j) ∧
      (∀ i j, v.pointPos i j = pp i j * pp i j) ∧ (∀ i j, v.obs i j = obs i j * obs i j) ∧
      (∀ i j, v.accel i j = accel i j * accel i j) ∧ (∀ i j, v.gyro i j = gyro i j * gyro i j) ∧
      v.fixAndHold = x * x := by
  obtain ⟨a1, a2, a3, a4, a5, a6, a7, a8, a9, a10, a11⟩ := h1
  obtain ⟨b1, b2, b3, b4, b5, b6, b7, b8, b9, b10, b11⟩ := h2
  obtain ⟨c, hc, cr, -, -, -, -, -, -, -, -, -, cs⟩ := C113_covariance parse cfg "P0_stdev".toList (by decide +kernel) P0
    a1 a2 a3 a4 a5 a6 a7 a8 a9 a10 a11 mem.P0
  obtain ⟨d, hd, dr, -, -, -, -, -, -, -, -, -, ds⟩ := C113_covariance parse cfg "process_stdev".toList
    (by decide +kernel) process b1 b2 b3 b4 b5 b6 b7 b8 b9 b10 b11 mem.process
  have n1 : ∀ k : Key, '/' ∉ k → k ≠ [] → Names [k] := fun k hk h0 => ⟨by simpa using hk, k, rfl, h0⟩
  have j1 : ∀ k : Key, joined [k] = k := fun k => by simp [joined]
  have e3 := getMat_holds (n1 _ (by decide +kernel) (by decide +kernel)) h3 true mem.pointPos
  have e4 := getMat_holds (n1 _ (by decide +kernel) (by decide +kernel)) h4 true mem.obs
  have e5 := getMat_holds (names_pair (by decide +kernel) (by decide +kernel) (by decide +kernel)) h5 true mem.accel
  have e6 := getMat_holds (names_pair (by decide +kernel) (by decide +kernel) (by decide +kernel)) h6 true mem.gyro
  have e7 := C113_found (asNum parse) cfg _ _ true mem.fixAndHold x
    (n1 "fix_and_hold_stdev".toList (by decide +kernel) (by decide +kernel)) h7 (by simp [asNum, h8])
  rw [j1] at e3 e4 e7
  rw [show joined ["imu_stdev".toList, "accel".toList] = "imu_stdev/accel".toList by decide +kernel] at e5
  rw [show joined ["imu_stdev".toList, "gyro".toList] = "imu_stdev/gyro".toList by decide +kernel] at e6
  refine ⟨⟨c, d, square pp, square obs, square accel, square gyro, x * x⟩, ?_, cr, cs, dr, ds, fun _ _ => rfl,
    fun _ _ => rfl, fun _ _ => rfl, fun _ _ => rfl, rfl⟩
  simp only [readNoise, getMeasurementCovariance, hc, hd, e3, e4, e5, e6, e7, Res.bind]

/-- **C113.** Without the deviation of held ambiguities the post processor does not go on. -/
theorem C113_hold_required [Mul K] (parse : List Char → Option K) (cfg : Node) (mem : Noise K)
    (h : ¬ ∃ n, At cfg ["fix_and_hold_stdev".toList] n) (b : Bool) (v : Noise K) : readNoise parse cfg mem ≠ .ret b v := by
  intro e
  rw [readNoise] at e
  obtain ⟨_, _, -, e⟩ := bind_ret e
  obtain ⟨_, _, -, e⟩ := bind_ret e
  obtain ⟨_, _, -, e⟩ := bind_ret e
  obtain ⟨_, _, -, e⟩ := bind_ret e
  obtain ⟨_, _, -, e⟩ := bind_ret e
  obtain ⟨_, _, -, e⟩ := bind_ret e
  obtain ⟨c, a, e, -⟩ := bind_ret e
  have hn : Names ["fix_and_hold_stdev".toList] := ⟨by decide +kernel, _, rfl, by decide +kernel⟩
  have := (C113_missing (asNum parse) cfg _ mem.fixAndHold hn h).1 c a
  rw [show joined ["fix_and_hold_stdev".toList] = "fix_and_hold_stdev".toList by simp [joined]] at this
  exact this e

theorem shipped_obs (parse : List Char → Option K) (old : EVec K 2) : getMat parse shipped "obs_stdev".toList true old = .abort := by
  have h : Utils.splitString "obs_stdev".toList '/' = ["obs_stdev".toList] := by decide +kernel
  have h2 : find "obs_stdev".toList (match shipped with | .map l => l | _ => []) = none := by
    simp [shipped, mapNode, find]
  have : getVal (asVec (asNum parse)) shipped "obs_stdev".toList true [] = .abort := by
    rw [getVal, h, getLoop.eq_def]
    dsimp only
    rw [show shipped.sub "obs_stdev".toList = some none from congrArg some h2]
    rfl
  rw [getMat, this]

/-- **C113, violated.** With the configuration file delivered with it the post processor never
starts: `obs_stdev`, which it requires, is not in the file (which has `gps_obs_stdev` and so on). -/
theorem C113_shipped_violated [Mul K] (parse : List Char → Option K) (mem : Noise K) (b : Bool) (v : Noise K) :
    readNoise parse shipped mem ≠ .ret b v := by
  intro h
  rw [readNoise] at h
  obtain ⟨_, _, -, h⟩ := bind_ret h
  obtain ⟨_, _, -, h⟩ := bind_ret h
  obtain ⟨_, _, -, h⟩ := bind_ret h
  obtain ⟨_, _, h1, -⟩ := bind_ret h
  rw [getMeasurementCovariance, shipped_obs] at h1
  cases h1

theorem shipped_at (k : String) (n : Node) (h : find k.toList (match shipped with | .map l => l | _ => []) = some n) :
    shipped.sub k.toList = some (some n) := congrArg some h

theorem shipped_sd : At shipped ["P0_stdev".toList, "sd".toList] (.scalar "1.0".toList) ∧
    At shipped ["process_stdev".toList, "sd".toList] (.scalar "0.001".toList) := by
  refine ⟨at_cons.2 ⟨_, shipped_at "P0_stdev" _ (by simp [shipped, mapNode, find]; rfl), at_cons.2 ⟨_, ?_, At.here _⟩⟩,
    at_cons.2 ⟨_, shipped_at "process_stdev" _ (by simp [shipped, mapNode, find]; rfl), at_cons.2 ⟨_, ?_, At.here _⟩⟩⟩
  · simp [Node.sub, find]
  · simp [Node.sub, find]

/-- **C113, violated.** In that file the deviations of `sd` are numbers where the program reads
lists: the variances of `sd` are made from uninitialised memory. -/
theorem C113_shipped_sd_violated (parse : List Char → Option K) (old : EVec K 1) :
    getMat parse shipped ("P0_stdev".toList ++ "/sd".toList) true old = .ret false old ∧
    getMat parse shipped ("process_stdev".toList ++ "/sd".toList) true old = .ret false old := by
  have e1 : "P0_stdev".toList ++ "/sd".toList = joined ["P0_stdev".toList, "sd".toList] := by decide +kernel
  have e2 : "process_stdev".toList ++ "/sd".toList = joined ["process_stdev".toList, "sd".toList] := by decide +kernel
  rw [e1, e2]
  have d : ∀ k : Key, '/' ∉ k → Names [k, "sd".toList] := fun k hk => names_pair hk (by decide +kernel) (by decide +kernel)
  exact ⟨C113_required_violated parse shipped _ _ 1 1 old (d _ (by decide +kernel)) shipped_sd.1 (by intro l h; cases h),
    C113_required_violated parse shipped _ _ 1 1 old (d _ (by decide +kernel)) shipped_sd.2 (by intro l h; cases h)⟩

theorem C113_statement_false : ¬ C113_statement := by
  intro h
  have e : Names ["P0_stdev".toList, "sd".toList] := names_pair (by decide +kernel) (by decide +kernel) (by decide +kernel)
  have := C113_required_violated (fun _ => none) shipped _ _ 1 1 (fun _ _ => (0 : ℚ)) e shipped_sd.1 (by intro l h; cases h)
  exact absurd (h _ _ _ e 1 _ _ _ this) (by simp)

/-- **C113, the delivered file.** What does not change in a run has no process noise there: the pose,
the velocity, the lever arm and the frame of the map. -/
theorem C113_shipped_constants [Zero K] (parse : List Char → Option K) (h0 : parse ['0'] = some 0) :
    Holds parse shipped ["process_stdev".toList, "T_I2e".toList] (fun (_ : Fin 6) _ => (0 : K)) ∧
    ∀ k ∈ ["translation", "rotation", "vel", "p_b2g"],
      Holds parse shipped ["process_stdev".toList, k.toList] (fun (_ : Fin 3) _ => (0 : K)) := by
  have z : ("0" : String).toList = ['0'] := by decide +kernel
  constructor
  · refine ⟨texts ["0", "0", "0", "0", "0", "0"], at_cons.2 ⟨_, shipped_at "process_stdev" _ (by simp [shipped, mapNode, find]; rfl),
      at_cons.2 ⟨_, by simp [Node.sub, find], At.here _⟩⟩, ["0", "0", "0", "0", "0", "0"].map String.toList, by simp [texts], ?_⟩
    simp [z, h0]
  · intro k hk
    refine ⟨texts ["0", "0", "0"], at_cons.2 ⟨_, shipped_at "process_stdev" _ (by simp [shipped, mapNode, find]; rfl),
      at_cons.2 ⟨_, ?_, At.here _⟩⟩, ["0", "0", "0"].map String.toList, by simp [texts], by simp [z, h0]⟩
    simp only [List.mem_cons, List.not_mem_nil, or_false] at hk
    rcases hk with rfl | rfl | rfl | rfl <;> simp [Node.sub, find]

/-! ### Examples -/

/-- The hypotheses of `C113_matrix_back` for a 2 by 2 matrix of bits in a nested entry, written as
the characters `0` and `1`. -/
example : getMat (fun t => if t = ['0'] then some false else if t = ['1'] then some true else none)
    (mapNode [("a", .null), ("nested", mapNode [("m", encode (fun b : Bool => if b then ['1'] else ['0']) (fun i j : Fin 2 => decide (i = 1 ∨ j = 0)))])])
    "nested/m".toList true (fun _ _ : Fin 2 => false) = .ret true (fun i j : Fin 2 => decide (i = 1 ∨ j = 0)) := by
  have e : "nested/m".toList = joined ["nested".toList, "m".toList] := by decide +kernel
  rw [e]
  refine (C113_matrix_back _ (fun b : Bool => if b then ['1'] else ['0']) (by intro x; cases x <;> decide) _
    ["nested".toList, "m".toList] true 2 2 _ _ (names_pair (by decide +kernel) (by decide +kernel) (by decide +kernel)) ?_).1
  exact at_cons.2 ⟨_, by simp [mapNode, Node.sub, find]; rfl, at_cons.2 ⟨_, by simp [Node.sub, find], At.here _⟩⟩

/-- The shipped file does have the other deviations: `rotation` is read (here with a parser for
this example). -/
example : Holds (fun t => if t = "0.1".toList then some 1 else if t = "0.0".toList then some 0 else none) shipped
    ["P0_stdev".toList, "rotation".toList] (fun (i : Fin 3) _ => if i.1 = 2 then (0 : ℕ) else 1) := by
  refine ⟨texts ["0.1", "0.1", "0.0"], at_cons.2 ⟨_, shipped_at "P0_stdev" _ (by simp [shipped, mapNode, find]; rfl),
    at_cons.2 ⟨_, by simp [Node.sub, find], At.here _⟩⟩, ["0.1", "0.1", "0.0"].map String.toList, by simp [texts], by decide +kernel⟩

end Verif.Props.Config
