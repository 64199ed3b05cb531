import Verif.Model.Args
import Mathlib.Data.List.Nodup
import Mathlib.Tactic.Ring

/-!
# C136: command lines

Which command lines the programs accept, what they make of them, and that parsing ends.
-/

namespace Verif.Props.Args

open Model.Args

/-! ## Numbers

The grammar of the comment (`argparse.hpp` 615-641). -/

/-- digit-sequence -/
def Digits (s : Str) : Prop := s ≠ [] ∧ ∀ c ∈ s, 48 ≤ c ∧ c ≤ 57

/-- exponent-part -/
def Exponent (s : Str) : Prop :=
  ∃ e sign d, s = e :: (sign ++ d) ∧ (e = 101 ∨ e = 69) ∧
    (sign = [] ∨ sign = [43] ∨ sign = [45]) ∧ Digits d

/-- exponent-part_opt -/
def ExponentOpt (s : Str) : Prop := s = [] ∨ Exponent s

/-- fractional-part -/
def Fraction (s : Str) : Prop := ∃ d x, s = 46 :: (d ++ x) ∧ Digits d ∧ ExponentOpt x

/-- decimal-literal -/
def Decimal (s : Str) : Prop :=
  s = [48] ∨
    (∃ c r, s = c :: r ∧ 49 ≤ c ∧ c ≤ 57 ∧ ∀ x ∈ r, 48 ≤ x ∧ x ≤ 57) ∨
    (∃ i f, s = i ++ f ∧ Digits i ∧ Fraction f) ∨
    Fraction s ∨
    (∃ i x, s = i ++ 46 :: x ∧ Digits i ∧ ExponentOpt x) ∨
    ∃ i x, s = i ++ x ∧ Digits i ∧ Exponent x

theorem digit_iff (c : Nat) : digit c = true ↔ 48 ≤ c ∧ c ≤ 57 := by simp [digit]

theorem split_digits (s : Str) :
    s = s.takeWhile digit ++ s.dropWhile digit ∧
      (∀ c ∈ s.takeWhile digit, digit c = true) ∧
      ∀ c r, s.dropWhile digit = c :: r → digit c = false := by
  refine ⟨(List.takeWhile_append_dropWhile).symm, ?_, ?_⟩
  · intro c hc
    have := List.all_takeWhile (p := digit) (l := s)
    rw [List.all_eq_true] at this
    exact this c hc
  · intro c r h
    have := List.head?_dropWhile_not digit s
    rw [h] at this
    simpa using this

theorem drop_digits {d : Str} (hd : ∀ c ∈ d, 48 ≤ c ∧ c ≤ 57) (x : Str)
    (hx : ∀ c r, x = c :: r → digit c = false) : (d ++ x).dropWhile digit = x := by
  rw [List.dropWhile_append_of_pos fun c hc => (digit_iff c).2 (hd c hc)]
  cases x with
  | nil => rfl
  | cons c r => rw [List.dropWhile_cons_of_neg (by simp [hx c r rfl])]

theorem all_digits (s : Str) :
    (s.dropWhile digit).isEmpty = true ↔ ∀ c ∈ s, 48 ≤ c ∧ c ≤ 57 := by
  constructor
  · intro h c hc
    have h1 : s.dropWhile digit = [] := by simpa using h
    have h2 := (split_digits s).1
    rw [h1, List.append_nil] at h2
    rw [h2] at hc
    exact (digit_iff c).1 ((split_digits s).2.1 c hc)
  · intro h
    have := drop_digits h [] (by simp)
    rw [List.append_nil] at this
    rw [this]; rfl

theorem digits_iff (s : Str) :
    Digits s ↔ ∃ c r, s = c :: r ∧ digit c = true ∧ (s.dropWhile digit).isEmpty = true := by
  constructor
  · rintro ⟨h1, h2⟩
    cases s with
    | nil => exact absurd rfl h1
    | cons c r =>
      exact ⟨c, r, rfl, (digit_iff c).2 (h2 c List.mem_cons_self), (all_digits _).2 h2⟩
  · rintro ⟨c, r, rfl, -, h⟩
    exact ⟨by simp, (all_digits _).1 h⟩

theorem postE_iff (s : Str) :
    postE s = true ↔ ∃ sign d, s = sign ++ d ∧ (sign = [] ∨ sign = [43] ∨ sign = [45]) ∧
      Digits d := by
  have key : ∀ t : Str, digitsOnly t = true ↔ Digits t := by
    intro t
    rw [digits_iff]
    cases t with
    | nil => simp [digitsOnly]
    | cons c r => simp [digitsOnly]
  unfold postE
  rw [key]
  constructor
  · intro h
    split at h
    · rename_i hs
      cases s with
      | nil => simp at hs
      | cons c r =>
        simp only [List.head?_cons, Option.some.injEq] at hs
        simp only [List.tail_cons] at h
        rcases hs with rfl | rfl
        · exact ⟨[45], r, rfl, by simp, h⟩
        · exact ⟨[43], r, rfl, by simp, h⟩
    · exact ⟨[], s, rfl, by simp, h⟩
  · rintro ⟨sign, d, rfl, hs, hd⟩
    rcases hs with rfl | rfl | rfl
    · have : ¬ ((d.head? = some 45) ∨ (d.head? = some 43)) := by
        obtain ⟨c, r, rfl, hc, -⟩ := (digits_iff d).1 hd
        rw [digit_iff] at hc
        simp only [List.head?_cons, Option.some.injEq]
        omega
      simp only [List.nil_append, this, if_false]
      exact hd
    · simpa using hd
    · simpa using hd

theorem expOpt_iff (s : Str) : expOpt s = true ↔ ExponentOpt s := by
  cases s with
  | nil => simp [expOpt, ExponentOpt]
  | cons c r =>
    simp only [expOpt, ExponentOpt, Exponent, List.cons_ne_nil, false_or]
    constructor
    · intro h
      split at h
      · rename_i hc
        obtain ⟨sign, d, rfl, h1, h2⟩ := (postE_iff r).1 h
        exact ⟨c, sign, d, rfl, hc, h1, h2⟩
      · simp at h
    · rintro ⟨e, sign, d, h, he, hs, hd⟩
      injection h with h1 h2
      subst h1 h2
      rw [if_pos he]
      exact (postE_iff _).2 ⟨sign, d, rfl, hs, hd⟩

theorem exponent_head {x : Str} (h : ExponentOpt x) : ∀ c r, x = c :: r → digit c = false := by
  rintro c r rfl
  rcases h with h | ⟨e, sign, d, h, he, -, -⟩
  · simp at h
  · injection h with h1 _
    subst h1
    rcases he with rfl | rfl <;> decide

theorem postPoint_iff (s : Str) :
    postPoint s = true ↔ ∃ d x, s = d ++ x ∧ Digits d ∧ ExponentOpt x := by
  constructor
  · intro h
    cases s with
    | nil => simp [postPoint] at h
    | cons c r =>
      unfold postPoint at h
      simp only at h
      split at h
      · rename_i hc
        refine ⟨(c :: r).takeWhile digit, (c :: r).dropWhile digit, (split_digits _).1, ⟨?_, ?_⟩,
          (expOpt_iff _).1 h⟩
        · rw [List.takeWhile_cons_of_pos hc]; simp
        · intro x hx
          exact (digit_iff x).1 ((split_digits (c :: r)).2.1 x hx)
      · simp at h
  · rintro ⟨d, x, rfl, hd, hx⟩
    obtain ⟨c, r, rfl, hc, -⟩ := (digits_iff d).1 hd
    unfold postPoint
    have := drop_digits hd.2 x (exponent_head hx)
    simp only [List.cons_append] at this ⊢
    rw [if_pos hc, this]
    exact (expOpt_iff x).2 hx

theorem intConsumed_iff (s : Str) :
    intConsumed s = true ↔ Fraction s ∨ (∃ x, s = 46 :: x ∧ ExponentOpt x) ∨ Exponent s := by
  cases s with
  | nil =>
    simp [intConsumed, Fraction, Exponent]
  | cons c r =>
    by_cases h46 : c = 46
    · subst h46
      have hexp : ¬ Exponent (46 :: r) := by
        rintro ⟨e, sign, d, h, he, -, -⟩
        injection h with h1 _
        omega
      have hF : Fraction (46 :: r) ↔ postPoint r = true := by
        rw [postPoint_iff]
        constructor
        · rintro ⟨d, x, h, hd, hx⟩
          injection h with _ h2
          exact ⟨d, x, h2, hd, hx⟩
        · rintro ⟨d, x, rfl, hd, hx⟩
          exact ⟨d, x, rfl, hd, hx⟩
      have hO : (∃ x, 46 :: r = 46 :: x ∧ ExponentOpt x) ↔ expOpt r = true := by
        rw [expOpt_iff]
        constructor
        · rintro ⟨x, h, hx⟩
          injection h with _ h2
          rw [h2]; exact hx
        · intro h; exact ⟨r, rfl, h⟩
      rw [hF, hO]
      simp only [hexp, or_false]
      cases r with
      | nil => simp [intConsumed, expOpt]
      | cons d t =>
        by_cases hd : digit d = true
        · have : expOpt (d :: t) = false := by
            rw [digit_iff] at hd
            have : ¬ (d = 101 ∨ d = 69) := by omega
            simp [expOpt, this]
          simp [intConsumed, hd, this]
        · have : postPoint (d :: t) = false := by simp [postPoint, hd]
          simp [intConsumed, hd, this]
    · have hF : ¬ Fraction (c :: r) := by
        rintro ⟨d, x, h, -, -⟩
        injection h with h1 _
        exact h46 h1
      have hO : ¬ ∃ x, c :: r = 46 :: x ∧ ExponentOpt x := by
        rintro ⟨x, h, -⟩
        injection h with h1 _
        exact h46 h1
      simp only [hF, hO, false_or, intConsumed, h46, if_false]
      have := expOpt_iff (c :: r)
      simp only [expOpt, ExponentOpt, List.cons_ne_nil, false_or] at this
      exact this

theorem part_head {s : Str}
    (h : Fraction s ∨ (∃ x, s = 46 :: x ∧ ExponentOpt x) ∨ Exponent s) :
    s ≠ [] ∧ ∀ c r, s = c :: r → digit c = false := by
  rcases h with ⟨d, x, rfl, -, -⟩ | ⟨x, rfl, -⟩ | ⟨e, sign, d, rfl, he, -, -⟩
  · exact ⟨by simp, by rintro c r ⟨⟩; decide⟩
  · exact ⟨by simp, by rintro c r ⟨⟩; decide⟩
  · refine ⟨by simp, ?_⟩
    rintro c r ⟨⟩
    rcases he with rfl | rfl <;> decide

/-- `is_decimal_literal` accepts exactly the strings of the grammar in its comment. -/
theorem C136_literal (s : Str) : literal s = true ↔ Decimal s := by
  -- the integer part, if there is one
  have hint : ∀ i t : Str, Digits i → (∀ c r, t = c :: r → digit c = false) → t ≠ [] →
      (literal (i ++ t) = true ↔
        Fraction t ∨ (∃ x, t = 46 :: x ∧ ExponentOpt x) ∨ Exponent t) := by
    intro i t hi ht htn
    obtain ⟨c, r, rfl, hc, -⟩ := (digits_iff i).1 hi
    have hdrop := drop_digits hi.2 t ht
    have hdrop' := drop_digits (d := r) (fun x hx => hi.2 x (List.mem_cons_of_mem _ hx)) t ht
    rw [← intConsumed_iff]
    unfold literal
    simp only [List.cons_append] at hdrop ⊢
    by_cases h48 : c = 48
    · rw [if_pos h48, if_neg (by simp [htn]), hdrop']
    · rw [if_neg h48, if_pos hc, hdrop, if_neg (by simpa using htn)]
  constructor
  · intro h
    cases s with
    | nil => simp [literal] at h
    | cons c r =>
      by_cases hc : digit c = true
      · by_cases hall : ((c :: r).dropWhile digit).isEmpty = true
        · have hd := (all_digits (c :: r)).1 hall
          by_cases h48 : c = 48
          · subst h48
            unfold literal at h
            simp only [if_true] at h
            by_cases hr : r.isEmpty = true
            · left
              have : r = [] := by simpa using hr
              rw [this]
            · rw [if_neg hr] at h
              have h0 : r.dropWhile digit = [] := by
                have := (all_digits r).2 fun x hx => hd x (List.mem_cons_of_mem _ hx)
                simpa using this
              rw [h0] at h
              simp [intConsumed] at h
          · right; left
            have h1 := hd c List.mem_cons_self
            exact ⟨c, r, rfl, by omega, by omega,
              fun x hx => hd x (List.mem_cons_of_mem _ hx)⟩
        · obtain ⟨hs, htk, hdr⟩ := split_digits (c :: r)
          have hi : Digits ((c :: r).takeWhile digit) := by
            refine ⟨?_, fun x hx => (digit_iff x).1 (htk x hx)⟩
            rw [List.takeWhile_cons_of_pos hc]; simp
          have hne : (c :: r).dropWhile digit ≠ [] := by simpa using hall
          rw [hs] at h
          rcases (hint _ _ hi hdr hne).1 h with hF | ⟨x, hx, hO⟩ | hE
          · right; right; left
            exact ⟨_, _, hs, hi, hF⟩
          · right; right; right; right; left
            exact ⟨_, x, by rw [← hx]; exact hs, hi, hO⟩
          · right; right; right; right; right
            exact ⟨_, _, hs, hi, hE⟩
      · have h48 : c ≠ 48 := by rintro rfl; exact hc (by decide)
        unfold literal at h
        simp only [h48, if_false, hc, Bool.false_eq_true] at h
        split at h
        · rename_i h46
          subst h46
          right; right; right; left
          obtain ⟨d, x, rfl, hd, hx⟩ := (postPoint_iff r).1 h
          exact ⟨d, x, rfl, hd, hx⟩
        · simp at h
  · rintro (rfl | ⟨c, r, rfl, h1, h2, hr⟩ | ⟨i, f, rfl, hi, hF⟩ | ⟨d, x, rfl, hd, hx⟩ |
      ⟨i, x, rfl, hi, hO⟩ | ⟨i, x, rfl, hi, hE⟩)
    · decide
    · have hd : ∀ x ∈ c :: r, 48 ≤ x ∧ x ≤ 57 := by
        intro x hx
        rcases List.mem_cons.1 hx with rfl | hx
        · omega
        · exact hr x hx
      unfold literal
      simp only
      rw [if_neg (by omega), if_pos ((digit_iff c).2 ⟨by omega, h2⟩),
        if_pos ((all_digits (c :: r)).2 hd)]
    · obtain ⟨hn, hh⟩ := part_head (Or.inl hF)
      exact (hint i f hi hh hn).2 (Or.inl hF)
    · unfold literal
      simp only [show (46 : Nat) ≠ 48 by decide, if_false, show digit 46 = false by decide,
        Bool.false_eq_true, if_true]
      exact (postPoint_iff _).2 ⟨d, x, rfl, hd, hx⟩
    · have h : Fraction (46 :: x) ∨ (∃ y, 46 :: x = 46 :: y ∧ ExponentOpt y) ∨
          Exponent (46 :: x) := Or.inr (Or.inl ⟨x, rfl, hO⟩)
      obtain ⟨hn, hh⟩ := part_head h
      exact (hint i _ hi hh hn).2 h
    · obtain ⟨hn, hh⟩ := part_head (Or.inr (Or.inr hE))
      exact (hint i x hi hh hn).2 (Or.inr (Or.inr hE))

/-- A word is taken for the name of an option exactly if it begins with a minus sign, is longer
than that and is no number. -/
theorem C136_option (s : Str) :
    isOpt s = true ↔ ∃ r, s = 45 :: r ∧ r ≠ [] ∧ ¬ Decimal r := by
  unfold isOpt positional
  cases s with
  | nil => simp
  | cons c r =>
    by_cases hc : c = 45
    · subst hc
      by_cases hr : r = []
      · subst hr; simp
      · have := C136_literal r
        cases hl : literal r with
        | true => simp [hr, hl, this.1 hl]
        | false =>
          have hd : ¬ Decimal r := fun h => by rw [this.2 h] at hl; simp at hl
          simp [hr, hl, hd]
    · simp [hc]

/-- `-1.5e+3` is a value, `-x` and `-00` are options. -/
example : isOpt [45, 49, 46, 53, 101, 43, 51] = false ∧ isOpt [45, 120] = true ∧
    isOpt [45, 48, 48] = true := by decide

/-! ## Parsing ends -/

theorem consume_length {d : Decl} {i : Nat} {st st' : State} {rest rest' : List Str}
    (h : consume d i st rest = .ok (st', rest')) : rest'.length ≤ rest.length := by
  unfold consume at h
  split at h
  · simp at h
  · simp only at h
    split at h
    · simp only [Out.ok.injEq, Prod.mk.injEq] at h
      rw [← h.2]
    generalize (if d.nargs < 0 then rest.length else d.nargs.toNat) = k at h
    split at h
    · split at h
      · simp at h
      · split at h
        · simp at h
        · split at h
          · split at h
            · simp only [Out.ok.injEq, Prod.mk.injEq] at h
              rw [← h.2]; simp
            · simp only [Out.ok.injEq, Prod.mk.injEq] at h
              rw [← h.2]; simp
          · simp only [Out.ok.injEq, Prod.mk.injEq] at h
            rw [← h.2]; simp
    split at h
    · simp only [Out.ok.injEq, Prod.mk.injEq] at h
      rw [← h.2]
    · simp at h

theorem consume_fuel (d : Decl) (i : Nat) (st : State) (rest : List Str) :
    consume d i st rest ≠ .fuel := by
  unfold consume
  split
  · simp
  · simp only
    split
    · simp
    generalize (if d.nargs < 0 then rest.length else d.nargs.toNat) = k
    split
    · split
      · simp
      · split
        · simp
        · split
          · split <;> simp
          · simp
    split <;> simp

theorem compound_length (ds : List Decl) (cs : Str) {st st' : State} {rest rest' : List Str}
    (h : compound ds cs st rest = .ok (st', rest')) : rest'.length ≤ rest.length := by
  induction cs generalizing st rest with
  | nil =>
    simp only [compound, Out.ok.injEq, Prod.mk.injEq] at h
    rw [h.2]
  | cons c cs ih =>
    rw [compound] at h
    cases hf : find ds [45, c] with
    | none => simp [hf] at h
    | some i =>
      simp only [hf] at h
      cases hc : consume (decl ds i) i st rest with
      | ok p =>
        obtain ⟨s1, r1⟩ := p
        simp only [hc] at h
        exact (ih h).trans (consume_length hc)
      | error => simp [hc] at h
      | crash => simp [hc] at h
      | help => simp [hc] at h
      | fuel => simp [hc] at h

theorem compound_fuel (ds : List Decl) (cs : Str) (st : State) (rest : List Str) :
    compound ds cs st rest ≠ .fuel := by
  induction cs generalizing st rest with
  | nil => simp [compound]
  | cons c cs ih =>
    rw [compound]
    cases hf : find ds [45, c] with
    | none => simp
    | some i =>
      simp only
      cases hc : consume (decl ds i) i st rest with
      | ok p =>
        obtain ⟨s1, r1⟩ := p
        exact ih _ _
      | error => simp
      | crash => simp
      | help => simp
      | fuel => exact absurd hc (consume_fuel _ _ _ _)

/-- The loop over the command line ends, for every parser and every command line: the counter of
one more than the words and the positional arguments is enough. -/
theorem C136_ends (ds : List Decl) (n : Nat) (pos : List Nat) (args : List Str) (st : State)
    (h : args.length + pos.length < n) : loop ds n pos args st ≠ .fuel := by
  induction n generalizing pos args st with
  | zero => omega
  | succ n ih =>
    cases args with
    | nil => simp [loop]
    | cons a r =>
      simp only [List.length_cons] at h
      rw [loop.eq_def]
      simp only
      split
      · cases pos with
        | nil => simp
        | cons i pos =>
          simp only [List.length_cons] at h
          simp only
          cases hc : consume (decl ds i) i st (a :: r) with
          | ok p =>
            obtain ⟨s1, r1⟩ := p
            have := consume_length hc
            simp only [List.length_cons] at this
            exact ih _ _ _ (by omega)
          | error => simp
          | crash => simp
          | help => simp
          | fuel => exact absurd hc (consume_fuel _ _ _ _)
      · cases hf : find ds a with
        | some i =>
          simp only
          split
          · simp
          · cases hc : consume (decl ds i) i st r with
            | ok p =>
              obtain ⟨s1, r1⟩ := p
              have := consume_length hc
              exact ih _ _ _ (by omega)
            | error => simp
            | crash => simp
            | help => simp
            | fuel => exact absurd hc (consume_fuel _ _ _ _)
        | none =>
          simp only
          split
          · cases hc : compound ds a.tail st r with
            | ok p =>
              obtain ⟨s1, r1⟩ := p
              have := compound_length ds _ hc
              exact ih _ _ _ (by omega)
            | error => simp
            | crash => simp
            | help => simp
            | fuel => exact absurd hc (compound_fuel _ _ _ _)
          · simp

theorem parse_ends (ds : List Decl) (args : List Str) : parse ds args ≠ .fuel := by
  have h := C136_ends ds (args.length + (positionals ds).length + 1) (positionals ds) args start
    (by omega)
  unfold parse
  cases hl : loop ds (args.length + (positionals ds).length + 1) (positionals ds) args start with
  | ok st => simp only; split <;> simp
  | error => simp
  | crash => simp
  | help => simp
  | fuel => exact absurd hl h

/-! ## What is accepted is complete -/

/-- Some name of the argument is its own. -/
def Named (ds : List Decl) (i : Nat) : Prop := ∃ s ∈ (decl ds i).names, find ds s = some i

/-- After a successful parse — of any command line by any parser — every required option without
default has been used and has exactly as many values as declared, and so has every positional
argument. -/
theorem C136_required (ds : List Decl) (args : List Str) (st : State)
    (h : parse ds args = .ok st) (i : Nat) (hi : i < ds.length) (hn : Named ds i)
    (h0 : 0 ≤ (decl ds i).nargs) (hd : (decl ds i).hasDefault = false) :
    ((decl ds i).isOptional = true → (decl ds i).required = true →
      st.used i = true ∧ ((st.values i).length : Int) = (decl ds i).nargs) ∧
    ((decl ds i).isOptional = true → st.used i = true →
      ((st.values i).length : Int) = (decl ds i).nargs) ∧
    ((decl ds i).isOptional = false → ((st.values i).length : Int) = (decl ds i).nargs) := by
  obtain ⟨s, hs, hf⟩ := hn
  have hv : validate (decl ds i) i st = true := by
    unfold parse at h
    cases hl : loop ds (args.length + (positionals ds).length + 1) (positionals ds) args start with
    | ok st' =>
      simp only [hl] at h
      split at h
      · rename_i hall
        simp only [Out.ok.injEq] at h
        subst h
        rw [List.all_eq_true] at hall
        have := hall i (List.mem_range.2 hi)
        rw [Bool.or_eq_true] at this
        rcases this with h1 | h1
        · exfalso
          rw [Bool.not_eq_true', List.any_eq_false] at h1
          exact h1 s hs (by simpa using hf)
        · exact h1
      · simp at h
    | error => rw [hl] at h; simp at h
    | crash => rw [hl] at h; simp at h
    | help => rw [hl] at h; simp at h
    | fuel => rw [hl] at h; simp at h
  unfold validate at hv
  rw [if_neg (by omega)] at hv
  simp only [hd, Bool.not_false, Bool.and_true] at hv
  have hk : (((decl ds i).nargs.toNat : Nat) : Int) = (decl ds i).nargs := Int.toNat_of_nonneg h0
  refine ⟨fun ho hr => ?_, fun ho hu => ?_, fun ho => ?_⟩
  · simp only [ho, hr, if_true] at hv
    cases hu : st.used i with
    | false => simp [hu] at hv
    | true =>
      by_cases hsz : (st.values i).length = (decl ds i).nargs.toNat
      · exact ⟨rfl, by rw [hsz, hk]⟩
      · simp [hu, hsz] at hv
  · simp only [ho, if_true] at hv
    by_cases hsz : (st.values i).length = (decl ds i).nargs.toNat
    · rw [hsz, hk]
    · simp [hu, hsz] at hv
  · simp only [ho, Bool.false_eq_true, if_false] at hv
    by_cases hsz : (st.values i).length = (decl ds i).nargs.toNat
    · rw [hsz, hk]
    · simp [hsz] at hv

theorem mapM_total {f : Str → Option Val} (h : ∀ s, (f s).isSome) (l : List Str) :
    (l.mapM f).isSome := by
  induction l with
  | nil => simp
  | cons a l ih =>
    obtain ⟨x, hx⟩ := Option.isSome_iff_exists.1 (h a)
    obtain ⟨y, hy⟩ := Option.isSome_iff_exists.1 ih
    simp [List.mapM_cons, hx, hy]

theorem consume_crash {d : Decl} (hd : ∀ s, (d.act s).isSome) (i : Nat) (st : State)
    (rest : List Str) : consume d i st rest ≠ .crash := by
  unfold consume
  split
  · simp
  · simp only
    split
    · simp
    generalize (if d.nargs < 0 then rest.length else d.nargs.toNat) = k
    split
    · split
      · simp
      · have := mapM_total hd (rest.take k)
        cases hm : (rest.take k).mapM d.act with
        | none => rw [hm] at this; simp at this
        | some vs =>
          simp only
          split
          · split <;> simp
          · simp
    split <;> simp

theorem compound_crash {ds : List Decl} (hd : ∀ i s, ((decl ds i).act s).isSome) (cs : Str)
    (st : State) (rest : List Str) : compound ds cs st rest ≠ .crash := by
  induction cs generalizing st rest with
  | nil => simp [compound]
  | cons c cs ih =>
    rw [compound]
    cases hf : find ds [45, c] with
    | none => simp
    | some i =>
      simp only
      cases hc : consume (decl ds i) i st rest with
      | ok p =>
        obtain ⟨s1, r1⟩ := p
        exact ih _ _
      | crash => exact absurd hc (consume_crash (hd i) _ _ _)
      | error => simp
      | help => simp
      | fuel => simp

/-- If no action throws, no command line terminates the program: it is accepted, reported as
wrong, or answered by the help. -/
theorem C136_no_crash_partial (ds : List Decl) (hd : ∀ i s, ((decl ds i).act s).isSome)
    (args : List Str) : parse ds args ≠ .crash ∧ parse ds args ≠ .fuel := by
  refine ⟨?_, parse_ends ds args⟩
  have key : ∀ n pos (args : List Str) st, loop ds n pos args st ≠ .crash := by
    intro n
    induction n with
    | zero => intro pos args st; rw [loop.eq_def]; simp
    | succ n ih =>
      intro pos args st
      cases args with
      | nil => rw [loop.eq_def]; simp
      | cons a r =>
        rw [loop.eq_def]
        simp only
        split
        · cases pos with
          | nil => simp
          | cons i pos =>
            simp only
            cases hc : consume (decl ds i) i st (a :: r) with
            | ok p => obtain ⟨s1, r1⟩ := p; exact ih _ _ _
            | crash => exact absurd hc (consume_crash (hd i) _ _ _)
            | error => simp
            | help => simp
            | fuel => simp
        · cases hf : find ds a with
          | some i =>
            simp only
            split
            · simp
            · cases hc : consume (decl ds i) i st r with
              | ok p => obtain ⟨s1, r1⟩ := p; exact ih _ _ _
              | crash => exact absurd hc (consume_crash (hd i) _ _ _)
              | error => simp
              | help => simp
              | fuel => simp
          | none =>
            simp only
            split
            · cases hc : compound ds a.tail st r with
              | ok p => obtain ⟨s1, r1⟩ := p; exact ih _ _ _
              | crash => exact absurd hc (compound_crash hd _ _ _)
              | error => simp
              | help => simp
              | fuel => simp
            · simp
  unfold parse
  have := key (args.length + (positionals ds).length + 1) (positionals ds) args start
  cases hl : loop ds (args.length + (positionals ds).length + 1) (positionals ds) args start with
  | ok st => simp only; split <;> simp
  | crash => exact absurd hl this
  | error => simp
  | help => simp
  | fuel => simp

/-! ## The programs -/

/-- The parsers of the programs: the help, and options with one long name and one value each. -/
structure Tool (ds : List Decl) : Prop where
  help : ds[0]? = some helpDecl
  opts : ∀ i, 0 < i → i < ds.length →
    (∃ r, r ≠ [] ∧ (decl ds i).names = [45 :: 45 :: r]) ∧ (decl ds i).nargs = 1 ∧
      (decl ds i).hasDefault = false
  uniq : ∀ i j a, i < ds.length → j < ds.length → a ∈ (decl ds i).names →
    a ∈ (decl ds j).names → i = j

theorem decl_get {ds : List Decl} {i : Nat} (h : i < ds.length) : ds[i]? = some (decl ds i) := by
  simp [decl, h]

theorem find_mem {ds : List Decl} {a : Str} {i : Nat} (h : find ds a = some i) :
    i < ds.length ∧ a ∈ (decl ds i).names := by
  unfold find at h
  have hm := List.mem_of_getLast? h
  rw [List.mem_filter, List.mem_range] at hm
  obtain ⟨h1, h2⟩ := hm
  refine ⟨h1, ?_⟩
  rw [decl_get h1] at h2
  simpa using h2

theorem find_ne {ds : List Decl} {a : Str} {i : Nat} (hi : i < ds.length)
    (ha : a ∈ (decl ds i).names) : find ds a ≠ none := by
  unfold find
  rw [ne_eq, List.getLast?_eq_none_iff]
  intro h
  have : i ∈ (List.range ds.length).filter fun i =>
      (ds[i]?.map fun d => d.names.contains a) = some true := by
    rw [List.mem_filter, List.mem_range]
    refine ⟨hi, ?_⟩
    rw [decl_get hi]
    simpa using ha
  rw [h] at this
  simp at this

theorem find_eq {ds : List Decl} (ht : Tool ds) {a : Str} {i : Nat} (hi : i < ds.length)
    (ha : a ∈ (decl ds i).names) : find ds a = some i := by
  cases hf : find ds a with
  | none => exact absurd hf (find_ne hi ha)
  | some j =>
    obtain ⟨h1, h2⟩ := find_mem hf
    rw [ht.uniq j i a h1 hi h2 ha]

theorem long_isOpt (r : Str) : isOpt (45 :: 45 :: r) = true := by
  simp [isOpt, positional, literal, digit]

theorem tool_pos {ds : List Decl} (ht : Tool ds) : 0 < ds.length := by
  have := ht.help
  cases ds with
  | nil => simp at this
  | cons d ds => simp

theorem tool_zero {ds : List Decl} (ht : Tool ds) : decl ds 0 = helpDecl := by
  simp [decl, ht.help]

theorem tool_optional {ds : List Decl} (ht : Tool ds) {i : Nat} (hi : i < ds.length) :
    (decl ds i).isOptional = true := by
  rcases Nat.eq_zero_or_pos i with rfl | h
  · rw [tool_zero ht]; decide
  · obtain ⟨⟨r, hrn, hr⟩, -, -⟩ := ht.opts i h hi
    simp [Decl.isOptional, hr, long_isOpt]

theorem tool_positionals {ds : List Decl} (ht : Tool ds) : positionals ds = [] := by
  unfold positionals
  rw [List.filter_eq_nil_iff]
  intro i hi
  simp [tool_optional ht (List.mem_range.1 hi)]

/-- What the action gives for a value. -/
def value (d : Decl) (v : Str) : Val := if d.void then .empty else (d.act v).getD .empty

/-- The state after one option and its value. -/
def step (ds : List Decl) (st : State) (p : Nat × Str) : State :=
  ⟨fun j => if j = p.1 then true else st.used j,
    fun j => if j = p.1 then [value (decl ds p.1) p.2] else st.values j⟩

/-- An option that is not used has no values. -/
def Fresh (st : State) : Prop := ∀ i, st.used i = false → st.values i = []

theorem consume_one {ds : List Decl} (ht : Tool ds) {i : Nat} (h0 : 0 < i) (hi : i < ds.length)
    {st : State} (hst : Fresh st) (rest : List Str) :
    consume (decl ds i) i st rest =
      if st.used i then .error
      else match rest with
        | [] => .error
        | v :: r =>
          if isOpt v then .error
          else if ((decl ds i).act v).isSome then .ok (step ds st (i, v), r) else .crash := by
  obtain ⟨-, hn, hd⟩ := ht.opts i h0 hi
  unfold consume
  cases hu : st.used i with
  | true => simp
  | false =>
    have hv := hst i hu
    simp only [hn, hd, Bool.false_eq_true, if_false, show ¬ (1 : Int) = 0 by decide,
      show ¬ (1 : Int) < 0 by decide]
    cases rest with
    | nil => simp
    | cons v r =>
      rw [if_pos (by simp only [List.length_cons]; omega)]
      simp only [Int.toNat_one, List.take_succ_cons, List.take_zero, List.any_cons, List.any_nil,
        Bool.or_false, List.drop_succ_cons, List.drop_zero]
      cases hopt : isOpt v with
      | true => simp
      | false =>
        cases ha : (decl ds i).act v with
        | none => simp [List.mapM_cons, ha]
        | some x =>
          simp only [List.mapM_cons, ha, List.mapM_nil]
          cases hvoid : (decl ds i).void with
          | true =>
            simp only [Option.pure_def, Option.bind_eq_bind, Option.bind_some, if_true,
              Bool.false_eq_true, and_false, if_false, Bool.not_false,
              true_and, show (0 : Int) ≤ 1 by decide, Option.isSome_some, Out.ok.injEq,
              Prod.mk.injEq, and_true]
            unfold step State.resize State.use
            simp only [hv, value, hvoid, if_true, State.mk.injEq, true_and]
            funext j
            by_cases hj : j = i <;> simp [hj]
          | false =>
            simp only [Option.pure_def, Option.bind_eq_bind, Option.bind_some, if_true,
              Bool.false_eq_true, and_false, if_false, Option.isSome_some, Out.ok.injEq,
              Prod.mk.injEq, and_true]
            unfold step State.push State.use
            simp only [hv, value, hvoid, ha, State.mk.injEq, true_and]
            funext j
            by_cases hj : j = i <;> simp [hj]

theorem step_fresh {ds : List Decl} {st : State} (h : Fresh st) (p : Nat × Str) :
    Fresh (step ds st p) := by
  intro i hi
  unfold step at hi ⊢
  simp only at hi ⊢
  split at hi
  · simp at hi
  · rename_i hne
    rw [if_neg hne]
    exact h i hi

/-- The name of an option. -/
def name (ds : List Decl) (i : Nat) : Str := (decl ds i).names.headD []

/-- A command line: names and values. -/
def line (ds : List Decl) (ps : List (Nat × Str)) : List Str :=
  ps.flatMap fun p => [name ds p.1, p.2]

/-- Options of the program, each at most once, each with a value that does not look like an option
and that its action accepts. -/
def Valid (ds : List Decl) (ps : List (Nat × Str)) : Prop :=
  (ps.map Prod.fst).Nodup ∧ ∀ p ∈ ps, 0 < p.1 ∧ p.1 < ds.length ∧ isOpt p.2 = false ∧
    ((decl ds p.1).act p.2).isSome

theorem tool_name {ds : List Decl} (ht : Tool ds) {i : Nat} (h0 : 0 < i) (hi : i < ds.length) :
    find ds (name ds i) = some i ∧ isOpt (name ds i) = true ∧
      ∀ a, a ∈ (decl ds i).names ↔ a = name ds i := by
  obtain ⟨⟨r, hrn, hr⟩, -, -⟩ := ht.opts i h0 hi
  have hname : name ds i = 45 :: 45 :: r := by simp [name, hr]
  refine ⟨find_eq ht hi (by simp [hname, hr]), by rw [hname]; exact long_isOpt r, ?_⟩
  intro a
  simp [hname, hr]

/-- A word of several short options is never accepted: only `-h` is one, and it can be used once. -/
theorem compound_error {ds : List Decl} (ht : Tool ds) (a : Str) (hl : 1 < a.length)
    (h45 : a.head? = some 45) (hf : find ds a = none) (st : State) (rest : List Str) :
    compound ds a.tail st rest = .error := by
  have hshort : ∀ c i, find ds [45, c] = some i → i = 0 ∧ c = 104 := by
    intro c i h
    obtain ⟨h1, h2⟩ := find_mem h
    rcases Nat.eq_zero_or_pos i with rfl | h0
    · rw [tool_zero ht] at h2
      simp [helpDecl] at h2
      exact ⟨rfl, h2⟩
    · obtain ⟨⟨r, hrn, hr⟩, -, -⟩ := ht.opts i h0 h1
      rw [hr] at h2
      simp at h2
      exact absurd h2.2 hrn
  have hhelp : ∀ s1 : State, s1.used 0 = true → ∀ r1, consume (decl ds 0) 0 s1 r1 = .error := by
    intro s1 h1 r1
    unfold consume
    rw [if_pos h1]
  match a, hl, h45, hf with
  | [], hl, _, _ => simp at hl
  | [_], hl, _, _ => simp at hl
  | x :: c :: cs, _, h45, hf =>
    obtain rfl : x = 45 := by simpa using h45
    simp only [List.tail_cons]
    rw [compound]
    cases hfc : find ds [45, c] with
    | none => rfl
    | some i =>
      obtain ⟨rfl, rfl⟩ := hshort c i hfc
      simp only
      cases hu : st.used 0 with
      | true => rw [hhelp st hu]
      | false =>
        have hc : consume (decl ds 0) 0 st rest = .ok ((st.use 0).push 0 [.empty], rest) := by
          unfold consume
          rw [hu, tool_zero ht]
          simp [helpDecl]
        rw [hc]
        simp only
        cases cs with
        | nil =>
          have : find ds [45, 104] = some 0 :=
            find_eq ht (tool_pos ht) (by rw [tool_zero ht]; simp [helpDecl])
          rw [this] at hf
          simp at hf
        | cons c2 cs =>
          rw [compound]
          cases hfc2 : find ds [45, c2] with
          | none => rfl
          | some i =>
            obtain ⟨rfl, rfl⟩ := hshort c2 i hfc2
            simp only
            rw [hhelp _ (by simp [State.push, State.use])]

/-- One turn of the loop in a program. -/
theorem loop_cons {ds : List Decl} (ht : Tool ds) (n : Nat) (a : Str) (r : List Str)
    {st : State} (hst : Fresh st) {st' : State}
    (h : loop ds (n + 1) [] (a :: r) st = .ok st') :
    ∃ i v r', 0 < i ∧ i < ds.length ∧ a = name ds i ∧ r = v :: r' ∧ isOpt v = false ∧
      ((decl ds i).act v).isSome ∧ st.used i = false ∧
      loop ds n [] r' (step ds st (i, v)) = .ok st' := by
  rw [loop.eq_def] at h
  simp only at h
  split at h
  · simp at h
  · cases hf : find ds a with
    | some i =>
      simp only [hf] at h
      obtain ⟨h1, h2⟩ := find_mem hf
      split at h
      · simp at h
      · rename_i hi0
        have h0 : 0 < i := Nat.pos_of_ne_zero hi0
        rw [consume_one ht h0 h1 hst] at h
        cases hu : st.used i with
        | true => simp [hu] at h
        | false =>
          cases r with
          | nil => simp [hu] at h
          | cons v r' =>
            cases ho : isOpt v with
            | true => simp [hu, ho] at h
            | false =>
              cases ha : ((decl ds i).act v).isSome with
              | false => simp [hu, ho, ha] at h
              | true =>
                simp only [hu, ho, ha, Bool.false_eq_true, if_false, if_true] at h
                exact ⟨i, v, r', h0, h1, ((tool_name ht h0 h1).2.2 a).1 h2, rfl, ho, ha, hu, h⟩
    | none =>
      simp only [hf] at h
      split at h
      · rename_i hc
        rw [compound_error ht a hc.1 hc.2.1 hf] at h
        simp at h
      · simp at h

theorem loop_pairs {ds : List Decl} (ht : Tool ds) (n : Nat) (args : List Str) (st : State)
    (hst : Fresh st) (st' : State) (h : loop ds n [] args st = .ok st') :
    ∃ ps, Valid ds ps ∧ (∀ p ∈ ps, st.used p.1 = false) ∧ args = line ds ps ∧
      st' = ps.foldl (step ds) st := by
  induction n generalizing args st with
  | zero => rw [loop.eq_def] at h; simp at h
  | succ n ih =>
    cases args with
    | nil =>
      rw [loop.eq_def] at h
      simp only [Out.ok.injEq] at h
      exact ⟨[], ⟨by simp, by simp⟩, by simp, rfl, h.symm⟩
    | cons a r =>
      obtain ⟨i, v, r', h0, h1, rfl, rfl, ho, ha, hu, hl⟩ := loop_cons ht n a r hst h
      obtain ⟨ps, ⟨hnd, hv⟩, hun, rfl, rfl⟩ := ih r' _ (step_fresh hst (i, v)) hl
      have hni : i ∉ ps.map Prod.fst := by
        intro hm
        obtain ⟨p, hp, rfl⟩ := List.mem_map.1 hm
        have := hun p hp
        simp [step] at this
      refine ⟨(i, v) :: ps, ⟨?_, ?_⟩, ?_, by simp [line], rfl⟩
      · simpa using ⟨by simpa using hni, hnd⟩
      · intro p hp
        rcases List.mem_cons.1 hp with rfl | hp
        · exact ⟨h0, h1, ho, ha⟩
        · exact hv p hp
      · intro p hp
        rcases List.mem_cons.1 hp with rfl | hp
        · exact hu
        · have h2 := hun p hp
          have hne : p.1 ≠ i := fun he => hni (he ▸ List.mem_map.2 ⟨p, hp, rfl⟩)
          simpa [step, hne] using h2

theorem pairs_loop {ds : List Decl} (ht : Tool ds) (ps : List (Nat × Str)) (hv : Valid ds ps)
    (n : Nat) (st : State) (hst : Fresh st) (hun : ∀ p ∈ ps, st.used p.1 = false)
    (hn : ps.length < n) : loop ds n [] (line ds ps) st = .ok (ps.foldl (step ds) st) := by
  induction ps generalizing n st with
  | nil =>
    obtain ⟨m, rfl⟩ : ∃ m, n = m + 1 := ⟨n - 1, by simp at hn; omega⟩
    rw [loop.eq_def]; rfl
  | cons p ps ih =>
    obtain ⟨m, rfl⟩ : ∃ m, n = m + 1 := ⟨n - 1, by omega⟩
    obtain ⟨i, v⟩ := p
    obtain ⟨hnd, hall⟩ := hv
    obtain ⟨h0, h1, ho, ha⟩ := hall (i, v) List.mem_cons_self
    simp only at h0 h1 ho ha
    obtain ⟨hf, hopt, -⟩ := tool_name ht h0 h1
    have hu : st.used i = false := hun (i, v) List.mem_cons_self
    have hpos : positional (name ds i) = false := by simpa [isOpt] using hopt
    simp only [List.map_cons, List.nodup_cons] at hnd
    have e : line ds ((i, v) :: ps) = name ds i :: v :: line ds ps := by simp [line]
    rw [e, loop.eq_def]
    simp only [hpos, Bool.false_eq_true, if_false, hf]
    rw [if_neg (by omega), consume_one ht h0 h1 hst]
    simp only [hu, ho, ha, Bool.false_eq_true, if_false, if_true]
    rw [List.foldl_cons]
    refine ih ⟨hnd.2, fun p hp => hall p (List.mem_cons_of_mem _ hp)⟩ m _ (step_fresh hst _) ?_
      (by simpa using hn)
    intro p hp
    have hne : p.1 ≠ i := fun he => hnd.1 (he ▸ List.mem_map.2 ⟨p, hp, rfl⟩)
    have := hun p (List.mem_cons_of_mem _ hp)
    simpa [step, hne] using this

theorem fold_used (ds : List Decl) (ps : List (Nat × Str)) (st : State) (i : Nat) :
    (ps.foldl (step ds) st).used i = (decide (i ∈ ps.map Prod.fst) || st.used i) := by
  induction ps generalizing st with
  | nil => simp
  | cons p ps ih =>
    rw [List.foldl_cons, ih]
    by_cases h1 : i = p.1
    · simp [step, h1]
    · have e : (i ∈ (p :: ps).map Prod.fst) = (i ∈ ps.map Prod.fst) := by
        simp only [List.map_cons, List.mem_cons, h1, false_or]
      simp only [e, step, h1, if_false]

theorem fold_values (ds : List Decl) (ps : List (Nat × Str)) (hnd : (ps.map Prod.fst).Nodup)
    (st : State) (p : Nat × Str) (hp : p ∈ ps) :
    (ps.foldl (step ds) st).values p.1 = [value (decl ds p.1) p.2] := by
  have hout : ∀ (ps : List (Nat × Str)) (st : State) (i : Nat), i ∉ ps.map Prod.fst →
      (ps.foldl (step ds) st).values i = st.values i := by
    intro ps
    induction ps with
    | nil => intro st i _; rfl
    | cons q ps ih =>
      intro st i hi
      simp only [List.map_cons, List.mem_cons, not_or] at hi
      rw [List.foldl_cons, ih _ _ hi.2]
      simp [step, hi.1]
  induction ps generalizing st with
  | nil => simp at hp
  | cons q ps ih =>
    simp only [List.map_cons, List.nodup_cons] at hnd
    rw [List.foldl_cons]
    rcases List.mem_cons.1 hp with rfl | hp
    · rw [hout _ _ _ hnd.1]
      simp [step]
    · exact ih hnd.2 _ hp

/-- The command lines a program accepts are exactly those made of its options, each at most once,
each followed by its value, the required ones all there, in any order; every option then holds what
its action made of the value that follows it, and the others are unused. -/
theorem C136_accepts (ds : List Decl) (ht : Tool ds) (args : List Str) (st : State) :
    parse ds args = .ok st ↔
      ∃ ps, Valid ds ps ∧
        (∀ i, 0 < i → i < ds.length → (decl ds i).required = true → i ∈ ps.map Prod.fst) ∧
        args = line ds ps ∧ st = ps.foldl (step ds) start := by
  have hfresh : Fresh start := fun i _ => rfl
  -- what is validated
  have hval : ∀ ps, Valid ds ps → ∀ i, i < ds.length →
      (validate (decl ds i) i (ps.foldl (step ds) start) = true ↔
        (0 < i → (decl ds i).required = true → i ∈ ps.map Prod.fst)) := by
    intro ps hv i hi
    rcases Nat.eq_zero_or_pos i with rfl | h0
    · have hnot : 0 ∉ ps.map Prod.fst := by
        intro hm
        obtain ⟨p, hp, he⟩ := List.mem_map.1 hm
        have := (hv.2 p hp).1
        omega
      have hu : (ps.foldl (step ds) start).used 0 = false := by
        rw [fold_used]; simp only [hnot, decide_false, Bool.false_or]; rfl
      have ho : helpDecl.isOptional = true := by decide
      rw [tool_zero ht]
      unfold validate
      rw [ho, hu]
      simp [helpDecl]
    · obtain ⟨-, hn, hd⟩ := ht.opts i h0 hi
      unfold validate
      rw [hn]
      simp only [show ¬ (1 : Int) < 0 by decide, if_false, tool_optional ht hi, if_true, hd,
        Int.toNat_one, Bool.not_false, Bool.and_true]
      rw [fold_used]
      by_cases hm : i ∈ ps.map Prod.fst
      · obtain ⟨p, hp, rfl⟩ := List.mem_map.1 hm
        rw [fold_values ds ps hv.1 start p hp]
        simp [hm]
      · have : start.used i = false := rfl
        cases hr : (decl ds i).required <;> simp [hm, this, h0]
  have hnames : ∀ i, i < ds.length →
      ((decl ds i).names.any fun s => decide (find ds s = some i)) = true := by
    intro i hi
    rw [List.any_eq_true]
    rcases Nat.eq_zero_or_pos i with rfl | h0
    · refine ⟨[45, 104], by rw [tool_zero ht]; simp [helpDecl], ?_⟩
      rw [find_eq ht hi (by rw [tool_zero ht]; simp [helpDecl])]
      simp
    · obtain ⟨h1, -, h3⟩ := tool_name ht h0 hi
      exact ⟨name ds i, (h3 _).2 rfl, by simpa using h1⟩
  have hcheck : ∀ st', ((List.range ds.length).all fun i =>
      !((decl ds i).names.any fun s => decide (find ds s = some i)) ||
        validate (decl ds i) i st') = true ↔
      ∀ i, i < ds.length → validate (decl ds i) i st' = true := by
    intro st'
    rw [List.all_eq_true]
    constructor
    · intro h i hi
      have := h i (List.mem_range.2 hi)
      rw [hnames i hi] at this
      simpa using this
    · intro h i hi
      rw [h i (List.mem_range.1 hi)]
      simp
  unfold parse
  rw [tool_positionals ht]
  constructor
  · intro h
    cases hl : loop ds (args.length + ([] : List Nat).length + 1) [] args start with
    | ok st' =>
      rw [hl] at h
      simp only at h
      split at h
      · rename_i hall
        simp only [Out.ok.injEq] at h
        subst h
        obtain ⟨ps, hv, -, h1, h2⟩ := loop_pairs ht _ args start hfresh _ hl
        refine ⟨ps, hv, ?_, h1, h2⟩
        rw [hcheck, h2] at hall
        intro i h0 hi hr
        exact (hval ps hv i hi).1 (hall i hi) h0 hr
      · simp at h
    | error => rw [hl] at h; simp at h
    | crash => rw [hl] at h; simp at h
    | help => rw [hl] at h; simp at h
    | fuel => rw [hl] at h; simp at h
  · rintro ⟨ps, hv, hr, rfl, rfl⟩
    have hlen : ps.length < (line ds ps).length + ([] : List Nat).length + 1 := by
      have : (line ds ps).length = 2 * ps.length := by
        unfold line
        clear hv hr
        induction ps with
        | nil => rfl
        | cons p ps ih => simp only [List.flatMap_cons, List.length_append, ih]; simp; omega
      simp only [this, List.length_nil]; omega
    rw [pairs_loop ht ps hv _ start hfresh (fun _ _ => rfl) hlen]
    simp only
    rw [if_pos]
    rw [hcheck]
    intro i hi
    exact (hval ps hv i hi).2 fun h0 hreq => hr i h0 hi hreq

/-- What the options hold afterwards, by the words. -/
theorem C136_values (ds : List Decl) (ps : List (Nat × Str)) (hv : Valid ds ps) (i : Nat) :
    (ps.foldl (step ds) start).used i = decide (i ∈ ps.map Prod.fst) ∧
      ∀ v, (i, v) ∈ ps → (ps.foldl (step ds) start).values i = [value (decl ds i) v] := by
  refine ⟨by rw [fold_used]; simp [start], fun v hp => ?_⟩
  exact fold_values ds ps hv.1 start (i, v) hp

/-- The conditions on a program, as a computation. -/
def toolB (names : List (List Str)) : Bool :=
  (List.range names.length).all fun i =>
    (i == 0 || match names[i]?.getD [] with
      | [45 :: 45 :: _ :: _] => true
      | _ => false) &&
    (List.range names.length).all fun j =>
      (names[i]?.getD []).all fun a => (!(names[j]?.getD []).contains a) || i == j

theorem tool_of (ds : List Decl) (h0 : ds[0]? = some helpDecl)
    (h1 : ∀ i, 0 < i → i < ds.length → (decl ds i).nargs = 1 ∧ (decl ds i).hasDefault = false)
    (h2 : toolB (ds.map Decl.names) = true) : Tool ds := by
  have hn : ∀ i, i < ds.length → (ds.map Decl.names)[i]?.getD [] = (decl ds i).names := by
    intro i hi
    simp [decl, hi]
  unfold toolB at h2
  rw [List.all_eq_true, List.length_map] at h2
  refine ⟨h0, fun i hp hi => ⟨?_, h1 i hp hi⟩, fun i j a hi hj ha hb => ?_⟩
  · have h := h2 i (List.mem_range.2 hi)
    rw [Bool.and_eq_true] at h
    have h := h.1
    rw [hn i hi] at h
    simp only [Bool.or_eq_true, beq_iff_eq, Nat.ne_of_gt hp, false_or] at h
    split at h
    · rename_i x y heq
      exact ⟨x :: y, by simp, heq⟩
    · simp at h
  · have h := h2 i (List.mem_range.2 hi)
    rw [Bool.and_eq_true] at h
    have h := h.2
    rw [List.all_eq_true] at h
    have h := h j (List.mem_range.2 hj)
    rw [List.all_eq_true, hn i hi, hn j hj] at h
    have h := h a ha
    simpa [hb] using h

theorem tools : Tool simulate ∧ Tool postProcess ∧ Tool verifyEphemeris ∧
    Tool gatherEphemeris := by
  have key : ∀ n, n = 2 ∨ n = 3 ∨ n = 4 → ∀ i, 0 < i → i < n → i = 1 ∨ i = 2 ∨ i = 3 := by omega
  refine ⟨tool_of _ rfl ?_ (by decide +kernel), tool_of _ rfl ?_ (by decide +kernel),
    tool_of _ rfl ?_ (by decide +kernel), tool_of _ rfl ?_ (by decide +kernel)⟩
  · intro i h0 h1
    have h1 : i < 2 := h1
    obtain rfl : i = 1 := by omega
    exact ⟨rfl, rfl⟩
  · intro i h0 h1
    have h1 : i < 3 := h1
    obtain rfl | rfl : i = 1 ∨ i = 2 := by omega
    · exact ⟨rfl, rfl⟩
    · exact ⟨rfl, rfl⟩
  · intro i h0 h1
    have h1 : i < 2 := h1
    obtain rfl : i = 1 := by omega
    exact ⟨rfl, rfl⟩
  · intro i h0 h1
    have h1 : i < 4 := h1
    obtain rfl | rfl | rfl : i = 1 ∨ i = 2 ∨ i = 3 := by omega
    · exact ⟨rfl, rfl⟩
    · exact ⟨rfl, rfl⟩
    · exact ⟨rfl, rfl⟩

/-- Pairs numbered 1 only. -/
theorem one_pair {ps : List (Nat × Str)} (hnd : (ps.map Prod.fst).Nodup)
    (h : ∀ p ∈ ps, p.1 = 1) (h1 : 1 ∈ ps.map Prod.fst) : ∃ v, ps = [(1, v)] := by
  match ps with
  | [] => simp at h1
  | [(i, v)] => exact ⟨v, by rw [show i = 1 from h (i, v) (by simp)]⟩
  | (i, v) :: (j, w) :: _ =>
    have e1 : i = 1 := h (i, v) (by simp)
    have e2 : j = 1 := h (j, w) (by simp)
    subst e1; subst e2
    simp at hnd

theorem one_accepts {ds : List Decl} (ht : Tool ds) (hl : ds.length = 2)
    (hr : (decl ds 1).required = true) (ha : ∀ s, ((decl ds 1).act s).isSome) (args : List Str) :
    (∃ st, parse ds args = .ok st) ↔ ∃ v, isOpt v = false ∧ args = [name ds 1, v] := by
  simp only [C136_accepts ds ht]
  constructor
  · rintro ⟨st, ps, hv, hreq, rfl, -⟩
    have h1 := hreq 1 (by omega) (by omega) hr
    obtain ⟨v, rfl⟩ := one_pair hv.1 (fun p hp => by
      have := hv.2 p hp; omega) h1
    exact ⟨v, (hv.2 (1, v) (by simp)).2.2.1, by simp [line]⟩
  · rintro ⟨v, ho, rfl⟩
    refine ⟨_, [(1, v)], ⟨by simp, ?_⟩, ?_, by simp [line], rfl⟩
    · intro p hp
      obtain rfl : p = (1, v) := by simpa using hp
      exact ⟨by omega, by simp only; omega, ho, ha v⟩
    · intro i h0 hi _
      obtain rfl : i = 1 := by omega
      simp

/-- `verify_ephemeris` goes on exactly with `--log` and a value that is no option, and then reads
that value; `simulate` with `--config_file` and a value. -/
theorem C136_one (args : List Str) :
    ((∃ st, parse verifyEphemeris args = .ok st) ↔
      ∃ v, isOpt v = false ∧ args = [str "--log", v]) ∧
    ((∃ st, parse simulate args = .ok st) ↔
      ∃ v, isOpt v = false ∧ args = [str "--config_file", v]) ∧
    ∀ v st, parse verifyEphemeris [str "--log", v] = .ok st → st.values 1 = [.text v] := by
  have hn : name verifyEphemeris 1 = str "--log" := rfl
  have hn' : name simulate 1 = str "--config_file" := rfl
  refine ⟨?_, ?_, fun v st h => ?_⟩
  · rw [one_accepts tools.2.2.1 rfl rfl (fun s => rfl), hn]
  · rw [one_accepts tools.1 rfl rfl (fun s => rfl), hn']
  · obtain ⟨ps, hv, hreq, hl, rfl⟩ := (C136_accepts _ tools.2.2.1 _ _).1 h
    obtain ⟨w, rfl⟩ := one_pair hv.1 (fun p hp => by
      have := (hv.2 p hp).2.1
      have h0 := (hv.2 p hp).1
      have e : verifyEphemeris.length = 2 := rfl
      omega) (hreq 1 (by omega) (by decide) rfl)
    have e : v = w := by
      simp only [line, List.flatMap_cons, List.flatMap_nil, List.append_nil, List.cons.injEq,
        and_true] at hl
      exact hl.2
    subst e
    exact (C136_values _ _ hv 1).2 v (by simp)

/-- `post_process` goes on exactly with both options, in either order. -/
theorem C136_two (args : List Str) :
    (∃ st, parse postProcess args = .ok st) ↔
      ∃ v w, isOpt v = false ∧ isOpt w = false ∧
        (args = [str "--config_file", v, str "--log", w] ∨
          args = [str "--log", w, str "--config_file", v]) := by
  have hl : postProcess.length = 3 := rfl
  have hn1 : name postProcess 1 = str "--config_file" := rfl
  have hn2 : name postProcess 2 = str "--log" := rfl
  simp only [C136_accepts _ tools.2.1]
  constructor
  · rintro ⟨st, ps, hv, hreq, rfl, -⟩
    have h1 := hreq 1 (by omega) (by omega) rfl
    have h2 := hreq 2 (by omega) (by omega) rfl
    have hr : ∀ p ∈ ps, p.1 = 1 ∨ p.1 = 2 := fun p hp => by
      have := (hv.2 p hp).2.1
      have := (hv.2 p hp).1
      omega
    match ps, hv, h1, h2, hr with
    | [], _, h1, _, _ => simp at h1
    | [(i, v)], _, h1, h2, _ =>
      simp only [List.map_cons, List.map_nil, List.mem_singleton] at h1 h2
      omega
    | [(i, v), (j, w)], hv, h1, h2, hr =>
      have o1 := (hv.2 (i, v) (by simp)).2.2.1
      have o2 := (hv.2 (j, w) (by simp)).2.2.1
      rcases hr (i, v) (by simp) with e | e
      · obtain rfl : i = 1 := e
        obtain rfl : j = 2 := by
          simp only [List.map_cons, List.map_nil, List.mem_cons, List.not_mem_nil, or_false] at h2
          omega
        exact ⟨v, w, o1, o2, .inl (by simp [line, hn1, hn2])⟩
      · obtain rfl : i = 2 := e
        obtain rfl : j = 1 := by
          simp only [List.map_cons, List.map_nil, List.mem_cons, List.not_mem_nil, or_false] at h1
          omega
        exact ⟨w, v, o2, o1, .inr (by simp [line, hn1, hn2])⟩
    | (i, v) :: (j, w) :: (k, x) :: _, hv, _, _, hr =>
      have := hr (i, v) (by simp)
      have := hr (j, w) (by simp)
      have := hr (k, x) (by simp)
      have hnd := hv.1
      simp only [List.map_cons, List.nodup_cons, List.mem_cons, not_or] at hnd
      obtain ⟨⟨a1, a2, -⟩, ⟨a3, -⟩, -⟩ := hnd
      simp only at *
      omega
  · rintro ⟨v, w, hv, hw, rfl | rfl⟩
    · refine ⟨_, [(1, v), (2, w)], ⟨by simp, ?_⟩, ?_, by simp [line, hn1, hn2], rfl⟩
      · intro p hp
        rcases List.mem_cons.1 hp with rfl | hp
        · exact ⟨by omega, by simp only; omega, hv, rfl⟩
        · obtain rfl : p = (2, w) := by simpa using hp
          exact ⟨by omega, by simp only; omega, hw, rfl⟩
      · intro i h0 hi _
        obtain rfl | rfl : i = 1 ∨ i = 2 := by omega
        · simp
        · simp
    · refine ⟨_, [(2, w), (1, v)], ⟨by simp, ?_⟩, ?_, by simp [line, hn1, hn2], rfl⟩
      · intro p hp
        rcases List.mem_cons.1 hp with rfl | hp
        · exact ⟨by omega, by simp only; omega, hw, rfl⟩
        · obtain rfl : p = (1, v) := by simpa using hp
          exact ⟨by omega, by simp only; omega, hv, rfl⟩
      · intro i h0 hi _
        obtain rfl | rfl : i = 1 ∨ i = 2 := by omega
        · simp
        · simp

/-- `gather_ephemeris` goes on exactly with its three options, each with its value, in any order, if
the value of `--baudrate` begins with a number that fits; that number is then used. -/
theorem C136_gather_partial (args : List Str) :
    (∃ st, parse gatherEphemeris args = .ok st) ↔
      ∃ (p b o : Str) (qs : List (Str × Str)), isOpt p = false ∧ isOpt b = false ∧
        isOpt o = false ∧ (stoi b).isSome ∧
        qs.Perm [(str "--port", p), (str "--baudrate", b), (str "--output_directory", o)] ∧
        args = qs.flatMap fun q => [q.1, q.2] := by
  have hlen : gatherEphemeris.length = 4 := rfl
  simp only [C136_accepts _ tools.2.2.2]
  constructor
  · rintro ⟨st, ps, hv, hreq, rfl, -⟩
    obtain ⟨⟨i1, p⟩, hp, e1⟩ := List.mem_map.1 (hreq 1 (by omega) (by omega) rfl)
    obtain ⟨⟨i2, b⟩, hb, e2⟩ := List.mem_map.1 (hreq 2 (by omega) (by omega) rfl)
    obtain ⟨⟨i3, o⟩, ho, e3⟩ := List.mem_map.1 (hreq 3 (by omega) (by omega) rfl)
    simp only at e1 e2 e3
    subst e1; subst e2; subst e3
    have hperm : ps.Perm [(1, p), (2, b), (3, o)] := by
      rw [List.perm_ext_iff_of_nodup hv.1.of_map (by simp)]
      intro q
      constructor
      · intro hq
        have hinj := List.inj_on_of_nodup_map hv.1
        have h0 := (hv.2 q hq).1
        have h4 := (hv.2 q hq).2.1
        obtain h | h | h : q.1 = 1 ∨ q.1 = 2 ∨ q.1 = 3 := by omega
        · rw [hinj hq hp h]; simp
        · rw [hinj hq hb h]; simp
        · rw [hinj hq ho h]; simp
      · intro hq
        simp only [List.mem_cons, List.not_mem_nil, or_false] at hq
        rcases hq with rfl | rfl | rfl
        · exact hp
        · exact hb
        · exact ho
    refine ⟨p, b, o, ps.map fun q => (name gatherEphemeris q.1, q.2), (hv.2 _ hp).2.2.1,
      (hv.2 _ hb).2.2.1, (hv.2 _ ho).2.2.1, ?_, hperm.map _, ?_⟩
    · have h : (stoiAct b).isSome := (hv.2 _ hb).2.2.2
      simpa [stoiAct] using h
    · simp [line, List.flatMap_map]
  · rintro ⟨p, b, o, qs, hp, hb, ho, hs, hperm, rfl⟩
    let num : Str → Nat := fun s => if s = str "--port" then 1 else if s = str "--baudrate" then 2
      else 3
    have hperm' : (qs.map fun q => (num q.1, q.2)).Perm [(1, p), (2, b), (3, o)] :=
      hperm.map fun q => (num q.1, q.2)
    refine ⟨_, qs.map fun q => (num q.1, q.2), ⟨?_, ?_⟩, ?_, ?_, rfl⟩
    · rw [(hperm'.map Prod.fst).nodup_iff]
      simp
    · intro q hq
      rw [hperm'.mem_iff] at hq
      simp only [List.mem_cons, List.not_mem_nil, or_false] at hq
      rcases hq with rfl | rfl | rfl
      · exact ⟨by omega, by simp only; omega, hp, rfl⟩
      · refine ⟨by omega, by simp only; omega, hb, ?_⟩
        show (stoiAct b).isSome
        simpa [stoiAct] using hs
      · exact ⟨by omega, by simp only; omega, ho, rfl⟩
    · intro i h0 hi _
      rw [(hperm'.map Prod.fst).mem_iff]
      simp
      omega
    · have hname : ∀ q ∈ qs, name gatherEphemeris (num q.1) = q.1 := by
        intro q hq
        rw [hperm.mem_iff] at hq
        simp only [List.mem_cons, List.not_mem_nil, or_false] at hq
        rcases hq with rfl | rfl | rfl
        · rfl
        · rfl
        · rfl
      unfold line
      rw [List.flatMap_map]
      rw [List.flatMap_congr]
      intro q hq
      rw [hname q hq]

/-- Every option of `gather_ephemeris` holds what followed its name, the baudrate as a number. -/
theorem C136_gather_values (ps : List (Nat × Str)) (hv : Valid gatherEphemeris ps) (p b o : Str)
    (hp : (1, p) ∈ ps) (hb : (2, b) ∈ ps) (ho : (3, o) ∈ ps) :
    ∃ st n, parse gatherEphemeris (line gatherEphemeris ps) = .ok st ∧ stoi b = some n ∧
      st.values 1 = [.text p] ∧ st.values 2 = [.num n] ∧ st.values 3 = [.text o] := by
  have hb' : (stoiAct b).isSome := (hv.2 _ hb).2.2.2
  obtain ⟨n, hn⟩ : ∃ n, stoi b = some n := by
    rw [← Option.isSome_iff_exists]
    simpa [stoiAct] using hb'
  refine ⟨_, n, (C136_accepts _ tools.2.2.2 _ _).2 ⟨ps, hv, ?_, rfl, rfl⟩, hn,
    (C136_values _ _ hv 1).2 p hp, ?_, (C136_values _ _ hv 3).2 o ho⟩
  · intro i h0 hi _
    have hlen : gatherEphemeris.length = 4 := rfl
    obtain rfl | rfl | rfl : i = 1 ∨ i = 2 ∨ i = 3 := by omega
    · exact List.mem_map.2 ⟨_, hp, rfl⟩
    · exact List.mem_map.2 ⟨_, hb, rfl⟩
    · exact List.mem_map.2 ⟨_, ho, rfl⟩
  · rw [(C136_values _ _ hv 2).2 b hb]
    show [(stoiAct b).getD .empty] = _
    rw [stoiAct, hn]
    rfl

/-- Three of the programs are never terminated by an exception while reading the command line. -/
theorem C136_safe (args : List Str) : parse simulate args ≠ .crash ∧
    parse postProcess args ≠ .crash ∧ parse verifyEphemeris args ≠ .crash := by
  have key : ∀ ds : List Decl, (∀ d ∈ ds, ∀ s, (d.act s).isSome) →
      ∀ i s, ((decl ds i).act s).isSome := by
    intro ds h i s
    unfold decl
    cases hd : ds[i]? with
    | none => rfl
    | some d => exact h d (List.mem_of_getElem? hd) s
  refine ⟨(C136_no_crash_partial _ (key _ ?_) _).1, (C136_no_crash_partial _ (key _ ?_) _).1,
    (C136_no_crash_partial _ (key _ ?_) _).1⟩
  · intro d hd s
    simp only [simulate, List.mem_cons, List.not_mem_nil, or_false] at hd
    rcases hd with rfl | rfl <;> rfl
  · intro d hd s
    simp only [postProcess, List.mem_cons, List.not_mem_nil, or_false] at hd
    rcases hd with rfl | rfl | rfl <;> rfl
  · intro d hd s
    simp only [verifyEphemeris, List.mem_cons, List.not_mem_nil, or_false] at hd
    rcases hd with rfl | rfl <;> rfl

/-- A baudrate that is no number terminates the program by an exception nothing catches, instead of
a message; one with letters after the digits is taken as the digits; a sign is no obstacle. -/
theorem C136_baudrate_violated :
    parse gatherEphemeris [str "--baudrate", str "fast"] = .crash ∧
    parse gatherEphemeris [str "--port", str "p", str "--output_directory", str "o",
      str "--baudrate", str "99999999999"] = .crash ∧
    (∃ st, parse gatherEphemeris [str "--port", str "p", str "--output_directory", str "o",
      str "--baudrate", str "115200x"] = .ok st ∧ st.values 2 = [.num 115200]) ∧
    (∃ st, parse gatherEphemeris [str "--port", str "p", str "--output_directory", str "o",
      str "--baudrate", str "-1"] = .ok st ∧ st.values 2 = [.num (-1)]) := by
  refine ⟨?_, ?_, ?_, ?_⟩
  · rfl
  · rfl
  · exact ⟨_, rfl, rfl⟩
  · exact ⟨_, rfl, rfl⟩

/-- The full statement: no command line terminates a program by an exception. -/
def C136_statement : Prop := ∀ args, parse gatherEphemeris args ≠ .crash

theorem C136_statement_false : ¬ C136_statement := fun h => h _ C136_baudrate_violated.1

/-! ## Numbers of the baud rate -/

/-- The number written with decimal digits. -/
def decimal : Str → Int
  | [] => 0
  | d :: ds => ((d : Int) - 48) * 10 ^ ds.length + decimal ds

/-- White space, a sign or none, digits, and then no digit: the number `n` that stands at the beginning of `s`. -/
def IntText (s : Str) (n : Int) : Prop :=
  ∃ w sign d r, s = w ++ (sign ++ (d ++ r)) ∧ (∀ c ∈ w, c = 32 ∨ 9 ≤ c ∧ c ≤ 13) ∧
    (sign = [] ∨ sign = [43] ∨ sign = [45]) ∧ Digits d ∧ (∀ c x, r = c :: x → ¬ (48 ≤ c ∧ c ≤ 57)) ∧
    n = if sign = [45] then -decimal d else decimal d

theorem number_decimal (s : Str) : number s = decimal s := by
  have key : ∀ (s : Str) (a : Int), s.foldl (fun (a : Int) (c : Nat) => 10 * a + ((c : Int) - 48)) a = a * 10 ^ s.length + decimal s := by
    intro s
    induction s with
    | nil => intro a; simp [decimal]
    | cons c s ih =>
      intro a
      rw [List.foldl_cons, ih, decimal, List.length_cons, pow_succ]
      ring
  rw [number, key]; simp

theorem mem_take {p : Nat → Bool} {s : Str} {c : Nat} (h : c ∈ s.takeWhile p) : p c = true := by
  induction s with
  | nil => simp at h
  | cons x s ih =>
    by_cases hx : p x = true
    · rw [List.takeWhile_cons_of_pos hx] at h
      rcases List.mem_cons.1 h with rfl | h
      · exact hx
      · exact ih h
    · rw [List.takeWhile_cons_of_neg hx] at h
      simp at h

/-- A line of digits after white space and a sign, taken apart. -/
theorem stoi_parts (w sign d r : Str) (hw : ∀ c ∈ w, c = 32 ∨ 9 ≤ c ∧ c ≤ 13)
    (hs : sign = [] ∨ sign = [43] ∨ sign = [45]) (hd : Digits d) (hr : ∀ c x, r = c :: x → ¬ (48 ≤ c ∧ c ≤ 57)) :
    stoi (w ++ (sign ++ (d ++ r))) =
      if -2147483648 ≤ (if sign = [45] then -decimal d else decimal d) ∧
        (if sign = [45] then -decimal d else decimal d) ≤ 2147483647 then
        some (if sign = [45] then -decimal d else decimal d) else none := by
  obtain ⟨c, t, rfl, hc, -⟩ := (digits_iff d).1 hd
  have hc' := (digit_iff c).1 hc
  have hdrop : (w ++ (sign ++ ((c :: t) ++ r))).dropWhile (fun c => decide (c = 32 ∨ 9 ≤ c ∧ c ≤ 13)) =
      sign ++ ((c :: t) ++ r) := by
    rw [List.dropWhile_append_of_pos fun x hx => by simpa using hw x hx]
    rcases hs with rfl | rfl | rfl
    · rw [List.nil_append, List.cons_append, List.dropWhile_cons_of_neg (by simp; omega)]
    · rw [List.cons_append, List.dropWhile_cons_of_neg (by simp)]
    · rw [List.cons_append, List.dropWhile_cons_of_neg (by simp)]
  have htake : ((c :: t) ++ r).takeWhile digit = c :: t := by
    rw [List.takeWhile_append_of_pos fun x hx => (digit_iff x).2 (hd.2 x hx)]
    cases r with
    | nil => simp
    | cons x r =>
      rw [List.takeWhile_cons_of_neg (by rw [digit_iff]; exact hr x r rfl)]; simp
  have h1 : ¬ (c = 45 ∨ c = 43) := by omega
  have h2 : c ≠ 45 := by omega
  unfold stoi
  simp only [hdrop]
  rcases hs with rfl | rfl | rfl
  · simp only [List.nil_append, List.cons_append, List.head?_cons, Option.some.injEq, h1, if_false, if_neg h2]
    rw [← List.cons_append, htake, number_decimal]
    simp
  · simp only [List.nil_append, List.cons_append, List.head?_cons, Option.some.injEq, or_true, if_true, List.tail_cons,
      show (43 : Nat) ≠ 45 by decide, if_false]
    rw [← List.cons_append, htake, number_decimal]
    simp
  · simp only [List.nil_append, List.cons_append, List.head?_cons, Option.some.injEq, true_or, if_true, List.tail_cons]
    rw [← List.cons_append, htake, number_decimal]
    simp

/-- **C136**: the baud rate is the number at the beginning of the text, if there is one and an `int` can hold it. -/
theorem C136_number (s : Str) (n : Int) :
    stoi s = some n ↔ IntText s n ∧ -2147483648 ≤ n ∧ n ≤ 2147483647 := by
  constructor
  · intro h
    -- the parts of any text
    obtain ⟨w, u, hwu, hw, hu⟩ : ∃ w u, s = w ++ u ∧ (∀ c ∈ w, c = 32 ∨ 9 ≤ c ∧ c ≤ 13) ∧
        u = s.dropWhile (fun c => decide (c = 32 ∨ 9 ≤ c ∧ c ≤ 13)) :=
      ⟨s.takeWhile _, s.dropWhile _, (List.takeWhile_append_dropWhile).symm,
        fun c hc => by simpa using mem_take hc, rfl⟩
    obtain ⟨sign, t, hst, hs, ht⟩ : ∃ sign t, u = sign ++ t ∧ (sign = [] ∨ sign = [43] ∨ sign = [45]) ∧
        t = if u.head? = some 45 ∨ u.head? = some 43 then u.tail else u := by
      cases u with
      | nil => exact ⟨[], [], rfl, Or.inl rfl, by simp⟩
      | cons c u =>
        by_cases h45 : c = 45
        · subst h45; exact ⟨[45], u, rfl, Or.inr (Or.inr rfl), by simp⟩
        · by_cases h43 : c = 43
          · subst h43; exact ⟨[43], u, rfl, Or.inr (Or.inl rfl), by simp⟩
          · exact ⟨[], c :: u, rfl, Or.inl rfl, by simp [h45, h43]⟩
    by_cases hd : t.takeWhile digit = []
    · exfalso
      unfold stoi at h
      simp only [← hu, ← ht, hd, if_true] at h
      cases h
    · have hdig : Digits (t.takeWhile digit) := ⟨hd, fun c hc => (digit_iff c).1 (mem_take hc)⟩
      have hr : ∀ c x, t.dropWhile digit = c :: x → ¬ (48 ≤ c ∧ c ≤ 57) := by
        intro c x hx hcc
        have h1 := List.head?_dropWhile_not digit t
        rw [hx] at h1
        simp [(digit_iff c).2 hcc] at h1
      have e : s = w ++ (sign ++ (t.takeWhile digit ++ t.dropWhile digit)) := by
        rw [List.takeWhile_append_dropWhile, ← hst, ← hwu]
      rw [e, stoi_parts w sign _ _ hw hs hdig hr] at h
      generalize hv : (if sign = [45] then -decimal (t.takeWhile digit) else decimal (t.takeWhile digit)) = v at h
      split at h
      · rename_i hrange
        rw [Option.some.injEq] at h
        rw [h] at hrange
        exact ⟨⟨w, sign, _, _, e, hw, hs, hdig, hr, (hv.trans h).symm⟩, hrange⟩
      · cases h
  · rintro ⟨⟨w, sign, d, r, rfl, hw, hs, hd, hr, rfl⟩, hrange⟩
    rw [stoi_parts w sign d r hw hs hd hr, if_pos hrange]

/-- **C136**: an argument is filled by position only if none of its names looks like an option. -/
theorem C136_kind (ds : List Decl) (i : Nat) :
    i ∈ positionals ds ↔ i < ds.length ∧ ¬ ∃ r, 45 :: r ∈ (decl ds i).names ∧ r ≠ [] ∧ ¬ Decimal r := by
  unfold positionals Decl.isOptional
  rw [List.mem_filter, List.mem_range]
  refine and_congr Iff.rfl ?_
  rw [Bool.not_eq_true', Bool.eq_false_iff, Ne, List.any_eq_true]
  refine not_congr ⟨?_, ?_⟩
  · rintro ⟨s, hs, ho⟩
    obtain ⟨r, rfl, h1, h2⟩ := (C136_option s).1 ho
    exact ⟨r, hs, h1, h2⟩
  · rintro ⟨r, hs, h1, h2⟩
    exact ⟨45 :: r, hs, (C136_option _).2 ⟨r, rfl, h1, h2⟩⟩

/-- `" -9600 Bd"`. -/
example : IntText (str " -9600 Bd") (-9600) :=
  ⟨str " ", str "-", str "9600", str " Bd", rfl, by decide, Or.inr (Or.inr rfl), ⟨by decide, by decide⟩,
    by rintro c x h; injection h with h; subst h; decide, rfl⟩

/-! Examples: a complete line in one order and in another, an option twice, a missing value. -/

example : ∃ st, parse postProcess [str "--log", str "a", str "--config_file", str "-3.5e2"] = .ok st :=
  (C136_two _).2 ⟨str "-3.5e2", str "a", rfl, rfl, .inr rfl⟩

example : Valid gatherEphemeris [(2, str "9600"), (1, str "p"), (3, str "o")] := by
  refine ⟨by decide, fun p hp => ?_⟩
  simp only [List.mem_cons, List.not_mem_nil, or_false] at hp
  rcases hp with rfl | rfl | rfl
  · exact ⟨by decide, by decide, rfl, rfl⟩
  · exact ⟨by decide, by decide, rfl, rfl⟩
  · exact ⟨by decide, by decide, rfl, rfl⟩

example : parse verifyEphemeris [str "--log", str "a", str "--log", str "b"] = .error := rfl

example : parse verifyEphemeris [str "--log", str "-x"] = .error := rfl

example : parse verifyEphemeris [str "-hh"] = .error := rfl

example : parse verifyEphemeris [str "-h"] = .help := rfl

end Verif.Props.Args
