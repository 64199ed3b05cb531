import Verif.Model.GenNames
import Verif.Spec.GenNames
import Mathlib.Data.List.Basic
import Mathlib.Tactic.Linarith
/-!
# C151: the names that the generator of the filter makes
-/
namespace Verif.Props.GenNames
open Verif.GenNames Verif.Spec.GenNames

theorem split_ne (n : Name) : split n ≠ [] := by
  cases n with
  | nil => simp [split]
  | cons c t =>
    unfold split
    split
    · simp
    · split <;> simp

/-- The words, all but the first capitalised. -/
def raw (n : Name) : Name := (split n).headD [] ++ ((split n).tail.map capitalize).flatten

/-- The same with the first word in lower case. -/
def rawLow (n : Name) : Name := ((split n).headD []).map low ++ ((split n).tail.map capitalize).flatten

/-- All words capitalised. -/
def body (n : Name) : Name := ((split n).map capitalize).flatten

theorem split_under (t : Name) : split (95 :: t) = [] :: split t := by rw [split]; simp

theorem split_char {c : ℕ} (hc : c ≠ 95) (t : Name) : ∃ w ws, split t = w :: ws ∧ split (c :: t) = (c :: w) :: ws := by
  have := split_ne t
  rw [split]
  cases h : split t with
  | nil => exact absurd h this
  | cons w ws => exact ⟨w, ws, rfl, by simp [hc]⟩

theorem raw_under (t : Name) : raw (95 :: t) = body t := by simp [raw, body, split_under]
theorem rawLow_under (t : Name) : rawLow (95 :: t) = body t := by simp [rawLow, body, split_under]
theorem body_under (t : Name) : body (95 :: t) = body t := by simp [body, split_under, capitalize]

theorem raw_char {c : ℕ} (hc : c ≠ 95) (t : Name) : raw (c :: t) = c :: raw t := by
  obtain ⟨w, ws, h1, h2⟩ := split_char hc t
  simp [raw, h1, h2]

theorem rawLow_char {c : ℕ} (hc : c ≠ 95) (t : Name) : rawLow (c :: t) = low c :: rawLow t := by
  obtain ⟨w, ws, h1, h2⟩ := split_char hc t
  simp [rawLow, h1, h2]

theorem body_char {c : ℕ} (hc : c ≠ 95) (t : Name) : body (c :: t) = up c :: rawLow t := by
  obtain ⟨w, ws, h1, h2⟩ := split_char hc t
  simp [rawLow, body, h1, h2, capitalize]

theorem up_ne {c : ℕ} (hc : c ≠ 95) : up c ≠ 95 := by unfold up; split <;> omega
theorem low_ne {c : ℕ} (hc : c ≠ 95) : low c ≠ 95 := by unfold low; split <;> omega

theorem no_under (n : Name) : (∀ c ∈ raw n, c ≠ 95) ∧ (∀ c ∈ rawLow n, c ≠ 95) ∧ ∀ c ∈ body n, c ≠ 95 := by
  induction n with
  | nil => simp [raw, rawLow, body, split, capitalize]
  | cons c t ih =>
    obtain ⟨i1, i2, i3⟩ := ih
    by_cases hc : c = 95
    · subst hc
      rw [raw_under, rawLow_under, body_under]
      exact ⟨i3, i3, i3⟩
    · rw [raw_char hc, rawLow_char hc, body_char hc]
      refine ⟨?_, ?_, ?_⟩ <;> intro d hd <;> rcases List.mem_cons.1 hd with rfl | hd
      · exact hc
      · exact i1 d hd
      · exact low_ne hc
      · exact i2 d hd
      · exact up_ne hc
      · exact i2 d hd

/-- `make_snake` after the first character. -/
def tail (n : Name) : Name := n.flatMap fun c => if IsUp c then [95, low c] else [low c]

theorem tail_cons (c : ℕ) (n : Name) : tail (c :: n) = (if IsUp c then [95, low c] else [low c]) ++ tail n := by
  simp [tail]

/-- What may follow the first character. -/
def Rest (n : Name) : Prop :=
  (∀ c ∈ n, ¬IsUp c) ∧ ∀ a b, n = a ++ 95 :: b → ∃ c, b.head? = some c ∧ IsLow c

theorem rest_char {c : ℕ} (hc : c ≠ 95) (t : Name) : Rest (c :: t) ↔ ¬IsUp c ∧ Rest t := by
  unfold Rest
  constructor
  · rintro ⟨h1, h2⟩
    exact ⟨h1 c List.mem_cons_self, fun d hd => h1 d (List.mem_cons_of_mem _ hd), fun a b h => h2 (c :: a) b (by rw [h]; rfl)⟩
  · rintro ⟨h0, h1, h2⟩
    refine ⟨fun d hd => ?_, fun a b h => ?_⟩
    · rcases List.mem_cons.1 hd with rfl | hd
      · exact h0
      · exact h1 d hd
    · cases a with
      | nil => simp at h; exact absurd h.1 hc
      | cons x a => simp at h; exact h2 a b h.2

theorem rest_under (t : Name) : Rest (95 :: t) ↔ (∃ c, t.head? = some c ∧ IsLow c) ∧ Rest t := by
  unfold Rest
  constructor
  · rintro ⟨h1, h2⟩
    exact ⟨h2 [] t rfl, fun d hd => h1 d (List.mem_cons_of_mem _ hd), fun a b h => h2 (95 :: a) b (by rw [h]; rfl)⟩
  · rintro ⟨h0, h1, h2⟩
    refine ⟨fun d hd => ?_, fun a b h => ?_⟩
    · rcases List.mem_cons.1 hd with rfl | hd
      · unfold IsUp; omega
      · exact h1 d hd
    · cases a with
      | nil => simp at h; rw [← h]; exact h0
      | cons x a => simp at h; exact h2 a b h.2

theorem tail_head {n : Name} (hn : ∀ c ∈ n, c ≠ 95) (t : Name) : tail n ≠ 95 :: 95 :: t := by
  intro h
  cases n with
  | nil => simp [tail] at h
  | cons c n =>
    have hc := hn c List.mem_cons_self
    rw [tail_cons] at h
    split at h
    · simp at h; exact low_ne hc h.1
    · simp at h; exact low_ne hc h.1

theorem tail_iff (n : Name) : (tail (raw n) = n ↔ Rest n) ∧ (tail (rawLow n) = n ↔ Rest n) := by
  induction hl : n.length using Nat.strong_induction_on generalizing n with
  | _ l ih =>
  cases n with
  | nil => simp [raw, rawLow, split, tail, Rest]
  | cons c t =>
    by_cases hc : c = 95
    · subst hc
      rw [raw_under, rawLow_under, rest_under]
      refine ⟨?_, ?_⟩ <;>
      · cases t with
        | nil => simp [body, split, capitalize, tail]
        | cons d t =>
          by_cases hd : d = 95
          · subst hd
            rw [body_under]
            constructor
            · intro h; exact absurd h (tail_head (no_under t).2.2 t)
            · rintro ⟨⟨c, h, h'⟩, -⟩
              simp at h
              unfold IsLow at h'
              omega
          · rw [body_char hd, tail_cons, rest_char hd]
            have i := (ih t.length (by simp at hl; omega) t rfl).2
            constructor
            · intro h
              split at h
              · rename_i hu
                simp at h
                refine ⟨⟨d, rfl, ?_⟩, ?_, i.1 h.2⟩
                · have := h.1
                  unfold low up IsLow IsUp at *
                  split_ifs at * <;> omega
                · have := h.1
                  unfold low up IsLow IsUp at *
                  split_ifs at * <;> omega
              · simp at h
                exact absurd h.1 (low_ne (up_ne hd))
            · rintro ⟨⟨e, h, h'⟩, h2, h3⟩
              simp at h
              subst h
              have e1 : up d = d - 32 := by unfold up; rw [if_pos h']
              have e2 : IsUp (d - 32) := by unfold IsUp IsLow at *; omega
              have e3 : low (d - 32) = d := by unfold low; rw [if_pos e2]; unfold IsLow at h'; omega
              rw [e1, if_pos e2, e3, i.2 h3]
              rfl
    · rw [raw_char hc, rawLow_char hc, tail_cons, tail_cons, rest_char hc]
      obtain ⟨i1, i2⟩ := ih t.length (by simp at hl; omega) t rfl
      constructor
      · by_cases hu : IsUp c
        · rw [if_pos hu]
          constructor
          · intro h; simp at h; exact absurd h.1.symm hc
          · rintro ⟨h, -⟩; exact absurd hu h
        · have e : low c = c := by unfold low; rw [if_neg hu]
          rw [if_neg hu, e]
          simp [hu, i1]
      · have hu : ¬IsUp (low c) := by unfold low; split <;> (unfold IsUp at *; omega)
        rw [if_neg hu]
        have key : ∀ y, ¬IsUp y → low y = y := fun y h => by unfold low; rw [if_neg h]
        have e := key _ hu
        rw [e]
        have : low c = c ↔ ¬IsUp c := by unfold low; split <;> (unfold IsUp at *; omega)
        simp [this, i2]

theorem camel_false (n : Name) : makeCamel n false = some (raw n) := by simp [makeCamel, raw]

theorem camel_true (n : Name) : makeCamel n true = match raw n with | [] => none | c :: t => some (up c :: t) := by
  rfl

theorem snake_iff (c : ℕ) (t : Name) : Snake (c :: t) ↔ c ≠ 95 ∧ ¬IsUp c ∧ Rest t := by
  unfold Snake
  by_cases hc : c = 95
  · subst hc; simp
  · have := rest_char hc t
    unfold Rest at this ⊢
    simp only [ne_eq, reduceCtorEq, not_false_eq_true, List.head?_cons, Option.some.injEq, hc, true_and]
    exact this

/-- Snake case is what the two functions keep. -/
theorem roundtrip (n : Name) : (makeCamel n true).map makeSnake = some n ↔ Snake n := by
  cases n with
  | nil => simp [makeCamel, split, Snake]
  | cons c t =>
    rw [snake_iff, camel_true]
    by_cases hc : c = 95
    · subst hc
      simp only [raw_under, ne_eq, not_true_eq_false, false_and, iff_false]
      have h := (no_under t).2.2
      cases hb : body t with
      | nil => simp
      | cons d r =>
        have hd := h d (by rw [hb]; exact List.mem_cons_self)
        simp only [Option.map_some, makeSnake, Option.some.injEq, List.cons.injEq]
        intro hh
        exact low_ne (up_ne hd) hh.1
    · rw [raw_char hc]
      simp only [Option.map_some, makeSnake, Option.some.injEq, List.cons.injEq]
      have e : low (up c) = c ↔ ¬IsUp c := by
        unfold low up IsLow IsUp
        split_ifs <;> omega
      rw [e]
      have := (tail_iff t).1
      unfold tail at this
      rw [this]
      simp [hc]

theorem sameFiles {b k : Name} (h : ∀ f, f ∈ promised b ↔
    f ∈ ["_state.h", "_state.cxx", "_types.h", "_types.cxx", ".h", ".cxx", "_sparse_test.cxx"].map fun s => k ++ codes s) : k = b := by
  have l1 : ∀ s ∈ ["_state.h", "_state.cxx", "_types.h", "_types.cxx", ".h", ".cxx", "_sparse_test.cxx"],
      2 ≤ (codes s).length ∧ ((codes s).length = 2 → codes s = codes ".h") := by decide +kernel
  have l2 : ∀ s ∈ [".h", ".cxx", "_sparse_test.cxx", "_state.cxx", "_state.h", "_types.cxx", "_types.h"], 2 ≤ (codes s).length := by
    decide +kernel
  have l3 : (codes ".h").length = 2 := by decide +kernel
  have a := (h (b ++ codes ".h")).1 (by unfold promised; exact List.mem_map.2 ⟨".h", by simp, rfl⟩)
  have c := (h (k ++ codes ".h")).2 (List.mem_map.2 ⟨".h", by simp, rfl⟩)
  unfold promised at c
  obtain ⟨s, hs, e⟩ := List.mem_map.1 a
  obtain ⟨s', hs', e'⟩ := List.mem_map.1 c
  have n1 := congrArg List.length e
  have n2 := congrArg List.length e'
  simp only [List.length_append, l3] at n1 n2
  have m1 := l1 s hs
  have m2 := l2 s' hs'
  have : codes s = codes ".h" := m1.2 (by omega)
  rw [this] at e
  exact List.append_cancel_right e

/-- **C151.** The generator writes the files that the rule of the build promises exactly when the name of the configuration is in snake
case. -/
theorem C151_files (base : Name) : (∃ fs, written base = some fs ∧ ∀ f, f ∈ promised base ↔ f ∈ fs) ↔ Snake base := by
  rw [← roundtrip]
  unfold written
  constructor
  · rintro ⟨fs, h1, h2⟩
    cases hm : makeCamel base true with
    | none => rw [hm] at h1; simp at h1
    | some k =>
      rw [hm] at h1
      simp only [Option.map_some, Option.some.injEq] at h1 ⊢
      subst h1
      exact sameFiles h2
  · intro h
    cases hm : makeCamel base true with
    | none => rw [hm] at h; simp at h
    | some k =>
      rw [hm] at h
      simp only [Option.map_some, Option.some.injEq] at h ⊢
      refine ⟨_, rfl, fun f => ?_⟩
      rw [h]
      unfold promised
      have p : [".h", ".cxx", "_sparse_test.cxx", "_state.cxx", "_state.h", "_types.cxx", "_types.h"].Perm
          ["_state.h", "_state.cxx", "_types.h", "_types.cxx", ".h", ".cxx", "_sparse_test.cxx"] := by decide +kernel
      exact (p.map fun s => base ++ codes s).mem_iff

theorem camel_inj_true {a b : Name} (ha : Snake a) (hb : Snake b) (h : makeCamel a true = makeCamel b true) : a = b := by
  have h1 := (roundtrip a).2 ha
  have h2 := (roundtrip b).2 hb
  rw [h, h2] at h1
  exact (Option.some.inj h1).symm

theorem camel_inj_raw {a b : Name} (ha : Snake a) (hb : Snake b) (h : raw a = raw b) : a = b :=
  camel_inj_true ha hb (by rw [camel_true, camel_true, h])

theorem first_under {a b x y : Name} (ha : ∀ c ∈ a, c ≠ 95) (hb : ∀ c ∈ b, c ≠ 95) (h : a ++ 95 :: x = b ++ 95 :: y) : a = b ∧ x = y := by
  induction a generalizing b with
  | nil =>
    cases b with
    | nil => simpa using h
    | cons d b => simp at h; exact absurd h.1.symm (hb d List.mem_cons_self)
  | cons c a ih =>
    cases b with
    | nil => simp at h; exact absurd h.1 (ha c List.mem_cons_self)
    | cons d b =>
      simp only [List.cons_append, List.cons.injEq] at h
      obtain ⟨i1, i2⟩ := ih (fun e he => ha e (List.mem_cons_of_mem _ he)) (fun e he => hb e (List.mem_cons_of_mem _ he)) h.2
      exact ⟨by rw [h.1, i1], i2⟩

theorem camel_true_under {n k : Name} (h : makeCamel n true = some k) : ∀ c ∈ k, c ≠ 95 := by
  rw [camel_true] at h
  have := (no_under n).1
  cases hr : raw n with
  | nil => rw [hr] at h; simp at h
  | cons c t =>
    rw [hr] at h this
    simp only [Option.some.injEq] at h
    subst h
    intro d hd
    rcases List.mem_cons.1 hd with rfl | hd
    · exact up_ne (this c List.mem_cons_self)
    · exact this d (List.mem_cons_of_mem _ hd)

/-- **C151, restricted.** Different pairs of states with names in snake case have different members in the Jacobians and in the
covariance.  Not so for arbitrary names: `C151_statement_false`. -/
theorem C151_members_partial {a b a' b' : Name} (ha : Snake a) (hb : Snake b) (ha' : Snake a') (hb' : Snake b') :
    (jacMember a b).isSome ∧ (jacMember a b = jacMember a' b' → a = a' ∧ b = b') ∧
    (covMember a b = covMember a' b' → a = a' ∧ b = b') := by
  have some' : ∀ n, Snake n → ∃ k, makeCamel n true = some k := by
    intro n hn
    have := (roundtrip n).2 hn
    cases h : makeCamel n true with
    | none => rw [h] at this; simp at this
    | some k => exact ⟨k, rfl⟩
  obtain ⟨ka, ea⟩ := some' a ha
  obtain ⟨kb, eb⟩ := some' b hb
  obtain ⟨ka', ea'⟩ := some' a' ha'
  obtain ⟨kb', eb'⟩ := some' b' hb'
  refine ⟨by simp [jacMember, ea, eb], fun h => ?_, fun h => ?_⟩
  · simp only [jacMember, ea, eb, ea', eb', Option.bind_some, Option.map_some, Option.some.injEq, List.cons_append, List.cons.injEq,
      true_and] at h
    obtain ⟨h1, h2⟩ := first_under (camel_true_under ea) (camel_true_under ea') h
    simp only [List.cons.injEq, true_and] at h2
    exact ⟨camel_inj_true ha ha' (by rw [ea, ea', h1]), camel_inj_true hb hb' (by rw [eb, eb', h2])⟩
  · simp only [covMember, camel_false, Option.bind_some, Option.map_some, Option.some.injEq] at h
    obtain ⟨h1, h2⟩ := first_under (no_under a).1 (no_under a').1 h
    exact ⟨camel_inj_raw ha ha' h1, camel_inj_raw hb hb' h2⟩

/-- Letters, digits and underscores, a letter first: a name in C++. -/
def Ident (n : Name) : Prop :=
  (∃ c, n.head? = some c ∧ (IsUp c ∨ IsLow c)) ∧ ∀ c ∈ n, IsUp c ∨ IsLow c ∨ (48 ≤ c ∧ c ≤ 57) ∨ c = 95

/-- What one would like of the names. -/
def C151_statement : Prop :=
  ∀ a b a' b', Ident a → Ident b → Ident a' → Ident b' → jacMember a b = jacMember a' b' → a = a' ∧ b = b'

theorem word_digit (w x : Name) (d : ℕ) (hd : 48 ≤ d ∧ d ≤ 57) (hx : ∀ c ∈ x, IsLow c) :
    raw (w ++ 95 :: d :: x) = raw (w ++ d :: x) := by
  have hd95 : d ≠ 95 := by omega
  have eu : up d = d := by unfold up IsLow; split <;> omega
  have ed : low d = d := by unfold low IsUp; split <;> omega
  have hl : ∀ x : Name, (∀ c ∈ x, IsLow c) → rawLow x = x ∧ raw x = x := by
    intro x
    induction x with
    | nil => intro _; simp [rawLow, raw, split]
    | cons c x ih =>
      intro h
      have hc := h c List.mem_cons_self
      obtain ⟨i1, i2⟩ := ih fun e he => h e (List.mem_cons_of_mem _ he)
      have c95 : c ≠ 95 := by unfold IsLow at hc; omega
      rw [rawLow_char c95, raw_char c95, i1, i2]
      refine ⟨?_, rfl⟩
      congr 1
      unfold low IsUp
      unfold IsLow at hc
      split <;> omega
  obtain ⟨x1, x2⟩ := hl x hx
  have base : ∀ w : Name, raw (w ++ 95 :: d :: x) = raw (w ++ d :: x) ∧ rawLow (w ++ 95 :: d :: x) = rawLow (w ++ d :: x) ∧
      (w ≠ [] → body (w ++ 95 :: d :: x) = body (w ++ d :: x)) := by
    intro w
    induction w with
    | nil =>
      simp only [List.nil_append, ne_eq, not_true_eq_false, false_implies, and_true]
      rw [raw_under, rawLow_under, body_char hd95, raw_char hd95, rawLow_char hd95, eu, ed, x1, x2]
      exact ⟨rfl, rfl⟩
    | cons c w ih =>
      obtain ⟨i1, i2, i3⟩ := ih
      by_cases hc : c = 95
      · subst hc
        have bb : body (w ++ 95 :: d :: x) = body (w ++ d :: x) := by
          by_cases hw : w = []
          · subst hw; simp only [List.nil_append]; rw [body_under]
          · exact i3 hw
        simp only [List.cons_append]
        rw [raw_under, raw_under, rawLow_under, rawLow_under, body_under, body_under, bb]
        exact ⟨rfl, rfl, fun _ => rfl⟩
      · simp only [List.cons_append]
        rw [raw_char hc, raw_char hc, rawLow_char hc, rawLow_char hc, body_char hc, body_char hc, i1, i2]
        exact ⟨rfl, rfl, fun _ => rfl⟩
  exact (base w).1

/-- **C151, violated.** A word that begins with a digit gives the same members as its name without the underscore. -/
theorem C151_digit_violated (w x b : Name) (d : ℕ) (hd : 48 ≤ d ∧ d ≤ 57) (hx : ∀ c ∈ x, IsLow c) :
    w ++ 95 :: d :: x ≠ w ++ d :: x ∧ jacMember (w ++ 95 :: d :: x) b = jacMember (w ++ d :: x) b ∧
    covMember (w ++ 95 :: d :: x) b = covMember (w ++ d :: x) b := by
  refine ⟨fun h => ?_, ?_, ?_⟩
  · have := congrArg List.length h
    simp at this
  · simp only [jacMember, camel_true, word_digit w x d hd hx]
  · simp only [covMember, camel_false, word_digit w x d hd hx]

theorem C151_statement_false : ¬ C151_statement := by
  intro h
  have hw : ∀ n : Name, n = codes "pos_2d" ∨ n = codes "pos2d" → Ident n := by
    intro n hn
    rcases hn with rfl | rfl
    · exact ⟨⟨112, by decide +kernel, by decide⟩, by decide +kernel⟩
    · exact ⟨⟨112, by decide +kernel, by decide⟩, by decide +kernel⟩
  have e := (h (codes "pos_2d") (codes "pos2d") (codes "pos2d") (codes "pos2d") (hw _ (.inl rfl)) (hw _ (.inr rfl)) (hw _ (.inr rfl))
    (hw _ (.inr rfl)) (by decide +kernel)).1
  exact absurd e (by decide +kernel)

/-- **C151.** The two configurations of the project: the files are those the rule promises, and no two states or inputs share a member,
`T_I2e` included, which is not in snake case. -/
theorem C151_shipped : (Snake (codes "rtk_ekf") ∧ Snake (codes "example_ekf")) ∧
    (rtkNames.map fun n => makeCamel n true).Nodup ∧ (rtkNames.map fun n => makeCamel n false).Nodup ∧
    (exampleNames.map fun n => makeCamel n true).Nodup ∧ (exampleNames.map fun n => makeCamel n false).Nodup ∧
    ¬Snake (codes "T_I2e") := by
  refine ⟨⟨(roundtrip _).1 (by decide +kernel), (roundtrip _).1 (by decide +kernel)⟩, by decide +kernel, by decide +kernel,
    by decide +kernel, by decide +kernel, fun h => ?_⟩
  exact absurd ((roundtrip _).2 h) (by decide +kernel)

/-- Two different names in snake case. -/
example : Snake (codes "acc_bias") ∧ Snake (codes "p_b2g") ∧ codes "acc_bias" ≠ codes "p_b2g" :=
  ⟨(roundtrip _).1 (by decide +kernel), (roundtrip _).1 (by decide +kernel), by decide +kernel⟩

end Verif.Props.GenNames
