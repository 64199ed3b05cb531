import Verif.Spec.Json
import Mathlib.Tactic.Linarith
import Mathlib.Tactic.Ring
import Mathlib.Tactic.FieldSimp
import Mathlib.Tactic.NormNum
import Mathlib.Tactic.Positivity

/-!
# Lemmas on the JSON reader and writer
-/

namespace Verif.Lemmas.Json

open Model.Json Spec.Json

/-! ## Spaces -/

theorem ws_space {c : Nat} (h : isspace c = some true) (s : Str) : ws (c :: s) = ws s := by
  rw [ws]; simp [h]

theorem ws_stop {c : Nat} (h : isspace c = some false) (s : Str) :
    ws (c :: s) = some (c :: s) := by
  rw [ws]; simp [h]

theorem ws_pad {p : Str} (h : Spaces p) (s : Str) : ws (p ++ s) = ws s := by
  induction p with
  | nil => rfl
  | cons c p ih =>
    rw [List.cons_append, ws_space (h c List.mem_cons_self)]
    exact ih fun x hx => h x (List.mem_cons_of_mem _ hx)

theorem ws_length {s t : Str} (h : ws s = some t) : t.length ≤ s.length := by
  induction s with
  | nil => simp [ws] at h; subst h; simp
  | cons c s ih =>
    rw [ws] at h
    cases hc : isspace c with
    | none => simp [hc] at h
    | some b =>
      cases b
      · simp [hc] at h; subst h; simp
      · simp only [hc] at h
        have := ih h
        simp only [List.length_cons]; omega

theorem next_pad {p : Str} (h : Spaces p) (n : Nat) (s : Str) : next n (p ++ s) = next n s := by
  cases n with
  | zero => rw [next, next]
  | succ n => rw [next, next, ws_pad h]

theorem elems_pad {p : Str} (h : Spaces p) (n : Nat) (s : Str) (acc : Elems) :
    elems n (p ++ s) acc = elems n s acc := by
  cases n with
  | zero => rw [elems, elems]
  | succ n => rw [elems, elems, next_pad h]

theorem fields_pad {p : Str} (h : Spaces p) (n : Nat) (s : Str) (acc : Fields) :
    fields n (p ++ s) acc = fields n s acc := by
  cases n with
  | zero => rw [fields, fields]
  | succ n => rw [fields, fields, next_pad h]

theorem spaces_pad {tab : Str} (h : Spaces tab) (d : Nat) : Spaces (pad d tab) := by
  intro c hc
  simp only [pad, List.mem_flatten, List.mem_replicate] at hc
  obtain ⟨l, ⟨_, rfl⟩, hl⟩ := hc
  exact h c hl

theorem spaces_drop {p : Str} (h : Spaces p) (k : Nat) : Spaces (p.drop k) :=
  fun c hc => h c (List.mem_of_mem_drop hc)

theorem spaces_append {p q : Str} (h : Spaces p) (h' : Spaces q) : Spaces (p ++ q) := by
  intro c hc
  rcases List.mem_append.1 hc with hc | hc
  · exact h c hc
  · exact h' c hc

/-! ## Strings -/

theorem chars_plain (c : Nat) (h1 : c ≠ 34) (h2 : c ≠ 92) (r val : Str) :
    chars (c :: r) val = chars r (val ++ [c]) := by
  rw [chars.eq_def]
  split <;> simp_all

theorem chars_esc (c : Nat) (r val : Str) : chars (esc c ++ r) val = chars r (val ++ [c]) := by
  unfold esc
  by_cases h1 : c = 34
  · subst h1; simp [chars]
  by_cases h2 : c = 92
  · subst h2; simp [chars]
  by_cases h3 : c = 8
  · subst h3; simp [chars]
  by_cases h4 : c = 12
  · subst h4; simp [chars]
  by_cases h5 : c = 10
  · subst h5; simp [chars]
  by_cases h6 : c = 13
  · subst h6; simp [chars]
  by_cases h7 : c = 9
  · subst h7; simp [chars]
  simp only [h1, h2, h3, h4, h5, h6, h7, if_false]
  exact chars_plain c h1 h2 r val

theorem chars_escape (s r val : Str) :
    chars (escape s ++ 34 :: r) val = .ok (.str (val ++ s)) (some r) := by
  induction s generalizing val with
  | nil => simp [escape, chars]
  | cons c s ih =>
    have : escape (c :: s) ++ 34 :: r = esc c ++ (escape s ++ 34 :: r) := by
      simp [escape]
    rw [this, chars_esc, ih]
    simp

theorem chars_length (s val : Str) {v : Json} {t : Option Str} (h : chars s val = .ok v t) :
    (∃ x, v = .str x) ∧ ∃ r, t = some r ∧ r.length ≤ s.length := by
  fun_induction chars s val
  all_goals first
    | (simp at h; done)
    | (simp only [Res.ok.injEq] at h
       obtain ⟨rfl, rfl⟩ := h
       exact ⟨⟨_, rfl⟩, _, rfl, by simp; try omega⟩)
    | (rename_i ih
       obtain ⟨h1, r, h2, h3⟩ := ih h
       exact ⟨h1, r, h2, by simp only [List.length_cons]; omega⟩)

theorem chars_fuel (s val : Str) : chars s val ≠ .fuel := by
  fun_induction chars s val <;> simp_all

/-! ## Numbers -/

theorem dec_ne (n : Nat) : dec n ≠ [] := by
  rw [dec]; split <;> simp

theorem dec_digit (n : Nat) : ∀ c ∈ dec n, digit c = true := by
  induction n using Nat.strong_induction_on with
  | _ n ih =>
    rw [dec]
    split
    · intro c hc
      simp only [List.mem_singleton] at hc
      simp only [digit, decide_eq_true_eq]; omega
    · intro c hc
      rcases List.mem_append.1 hc with hc | hc
      · exact ih (n / 10) (by omega) c hc
      · simp only [List.mem_singleton] at hc
        simp only [digit, decide_eq_true_eq]; omega

theorem value_append (s : Str) (c : Nat) : value (s ++ [c]) = 10 * value s + (c - 48) := by
  simp [value]

theorem value_dec (n : Nat) : value (dec n) = n := by
  induction n using Nat.strong_induction_on with
  | _ n ih =>
    rw [dec]
    split
    · simp [value]
    · rw [value_append, ih (n / 10) (by omega)]; omega

theorem takeDigits {d : Str} (h : ∀ c ∈ d, digit c = true) : d.takeWhile digit = d := by
  have := List.takeWhile_append_of_pos (l₂ := []) h
  simpa using this

theorem head_of_digits {d : Str} (hne : d ≠ []) (h : ∀ c ∈ d, digit c = true) :
    ∃ c t, d = c :: t ∧ digit c = true := by
  cases d with
  | nil => exact absurd rfl hne
  | cons c t => exact ⟨c, t, rfl, h c List.mem_cons_self⟩

theorem stol_showInt (n : Int) (h : -9223372036854775808 ≤ n ∧ n ≤ 9223372036854775807) :
    stol (showInt n) = some n := by
  unfold stol showInt
  have hd := takeDigits (dec_digit n.natAbs)
  by_cases hn : n < 0
  · simp only [hn, if_true, List.head?_cons, List.tail_cons, hd, value_dec]
    have e : -((n.natAbs : Nat) : Int) = n := by omega
    rw [e]
    simp [dec_ne, h]
  · obtain ⟨c, t, hc, hdig⟩ := head_of_digits (dec_ne n.natAbs) (dec_digit n.natAbs)
    have h45 : (dec n.natAbs).head? ≠ some 45 := by
      rw [hc]; simp only [List.head?_cons, ne_eq, Option.some.injEq]
      rintro rfl; simp [digit] at hdig
    simp only [hn, if_false, h45, hd, value_dec]
    have e : ((n.natAbs : Nat) : Int) = n := by omega
    rw [e]
    simp [dec_ne, h]

theorem six_digit (n : Nat) : ∀ c ∈ six n, digit c = true := by
  intro c hc
  simp only [six, List.mem_cons, List.not_mem_nil, or_false] at hc
  simp only [digit, decide_eq_true_eq]
  omega

theorem value_six (n : Nat) : value (six n) = n % 1000000 := by
  simp only [value, six, List.foldl_cons, List.foldl_nil]
  omega

/-- Digits, a point and six digits. -/
theorem stod_fixed (neg : Bool) (n : Nat) :
    stod ((if neg then [45] else []) ++ dec (n / 1000000) ++ [46] ++ six n) =
      some (if neg then -((n : ℚ) / 1000000) else (n : ℚ) / 1000000) := by
  have hv : ((n / 1000000 : Nat) : ℚ) + ((n % 1000000 : Nat) : ℚ) / 10 ^ 6 =
      (n : ℚ) / 1000000 := by
    have : ((n : Nat) : ℚ) = 1000000 * ((n / 1000000 : Nat) : ℚ) + ((n % 1000000 : Nat) : ℚ) := by
      exact_mod_cast (Nat.div_add_mod n 1000000).symm
    rw [this]; field_simp; ring
  obtain ⟨c, t, hc, hdig⟩ := head_of_digits (dec_ne (n / 1000000)) (dec_digit (n / 1000000))
  have h46 : digit 46 = false := by decide
  have htake : (dec (n / 1000000) ++ (46 :: six n)).takeWhile digit = dec (n / 1000000) := by
    rw [List.takeWhile_append_of_pos (dec_digit _), List.takeWhile_cons_of_neg (by simp [h46])]
    simp
  have hdrop : (dec (n / 1000000) ++ (46 :: six n)).dropWhile digit = 46 :: six n := by
    rw [List.dropWhile_append_of_pos (dec_digit _), List.dropWhile_cons_of_neg (by simp [h46])]
  have h45 : (dec (n / 1000000) ++ (46 :: six n)).head? ≠ some 45 := by
    rw [hc]; simp only [List.cons_append, List.head?_cons, ne_eq, Option.some.injEq]
    rintro rfl; simp [digit] at hdig
  have hlen : (six n).length = 6 := rfl
  cases neg
  · have e : (if false = true then [45] else []) ++ dec (n / 1000000) ++ [46] ++ six n =
        dec (n / 1000000) ++ (46 :: six n) := by simp
    rw [e]
    unfold stod
    simp only [h45, if_false, htake, hdrop, List.head?_cons, if_true, List.tail_cons,
      takeDigits (six_digit n), value_dec, value_six, hlen, hv, dec_ne, false_and]
    simp
  · have e : (if true = true then [45] else []) ++ dec (n / 1000000) ++ [46] ++ six n =
        45 :: (dec (n / 1000000) ++ (46 :: six n)) := by simp
    rw [e]
    unfold stod
    simp only [htake, hdrop, List.head?_cons, if_true, List.tail_cons,
      takeDigits (six_digit n), value_dec, value_six, hlen, hv, dec_ne, false_and]
    simp

theorem numCh_of_digit {c : Nat} (h : digit c = true) : numCh c = true := by
  simp only [digit, decide_eq_true_eq] at h
  simp only [numCh, decide_eq_true_eq]; omega

theorem showInt_num (n : Int) : ∀ c ∈ showInt n, numCh c = true := by
  intro c hc
  unfold showInt at hc
  split at hc
  · rcases List.mem_cons.1 hc with rfl | hc
    · decide
    · exact numCh_of_digit (dec_digit _ c hc)
  · exact numCh_of_digit (dec_digit _ c hc)

theorem showInt_point (n : Int) : (showInt n).contains 46 = false := by
  have h : 46 ∉ showInt n := by
    intro hc
    unfold showInt at hc
    split at hc
    · rcases List.mem_cons.1 hc with h | hc
      · omega
      · have := dec_digit _ 46 hc; simp [digit] at this
    · have := dec_digit _ 46 hc; simp [digit] at this
  simpa using h

theorem showFlt_num (q : ℚ) : ∀ c ∈ showFlt q, numCh c = true := by
  intro c hc
  simp only [showFlt, List.append_assoc, List.mem_append] at hc
  rcases hc with hc | hc | hc | hc
  · split at hc
    · simp only [List.mem_singleton] at hc; subst hc; decide
    · simp at hc
  · exact numCh_of_digit (dec_digit _ c hc)
  · simp only [List.mem_singleton] at hc; subst hc; decide
  · exact numCh_of_digit (six_digit _ c hc)

theorem showFlt_point (q : ℚ) : (showFlt q).contains 46 = true := by
  simp [showFlt]

theorem term_cases {c : Nat} (h : term c = some true) : numCh c = false ∧ c ≠ 69 ∧ c ≠ 101 := by
  unfold term isspace at h
  by_cases hc : c < 128
  · simp only [hc, if_true, Option.some.injEq, Bool.or_eq_true, decide_eq_true_eq] at h
    refine ⟨?_, ?_, ?_⟩
    · simp only [numCh, decide_eq_false_iff_not]; omega
    · omega
    · omega
  · simp [hc] at h

/-- A number and the character that ends it. -/
theorem number_plain {s : Str} (hs : ∀ x ∈ s, numCh x = true) {c : Nat} (hc : term c = some true)
    (r : Str) : number (s ++ c :: r) = finish s [] 0 (c :: r) := by
  obtain ⟨h1, h2, h3⟩ := term_cases hc
  have ht : (s ++ c :: r).takeWhile numCh = s := by
    rw [List.takeWhile_append_of_pos hs, List.takeWhile_cons_of_neg (by simp [h1])]; simp
  have hd : (s ++ c :: r).dropWhile numCh = c :: r := by
    rw [List.dropWhile_append_of_pos hs, List.dropWhile_cons_of_neg (by simp [h1])]
  unfold number
  simp only [ht, hd, h2, h3, or_self, if_false, hc]

theorem number_int (n : Int) (h : -9223372036854775808 ≤ n ∧ n ≤ 9223372036854775807) {c : Nat}
    (hc : term c = some true) (r : Str) :
    number (showInt n ++ c :: r) = .ok (.int n) (some (c :: r)) := by
  rw [number_plain (showInt_num n) hc]
  unfold finish
  rw [showInt_point, stol_showInt n h]
  simp

theorem nearest_nonneg {q : ℚ} (h : 0 ≤ q) : 0 ≤ nearest q := by
  have : 0 ≤ ⌊q⌋ := Int.floor_nonneg.2 h
  unfold nearest
  split
  · exact this
  · split
    · omega
    · split <;> omega

theorem number_flt (q : ℚ) {c : Nat} (hc : term c = some true) (r : Str) :
    number (showFlt q ++ c :: r) = .ok (.flt (round6 q)) (some (c :: r)) := by
  rw [number_plain (showFlt_num q) hc]
  unfold finish
  rw [showFlt_point]
  have h0 : 0 ≤ nearest (|q| * 1000000) := nearest_nonneg (by positivity)
  have e : showFlt q = (if decide (q < 0) then [45] else []) ++
      dec ((nearest (|q| * 1000000)).toNat / 1000000) ++ [46] ++
      six (nearest (|q| * 1000000)).toNat := by
    simp [showFlt]
  have hn : (((nearest (|q| * 1000000)).toNat : Nat) : ℚ) = (nearest (|q| * 1000000) : ℚ) := by
    have : (((nearest (|q| * 1000000)).toNat : Nat) : Int) = nearest (|q| * 1000000) :=
      Int.toNat_of_nonneg h0
    exact_mod_cast this
  rw [e, stod_fixed, hn]
  simp only [if_true, zpow_zero, mul_one, round6, decide_eq_true_eq]

/-! ## Lists -/

/-- Elements after elements. -/
def appE : Elems → Elems → Elems
  | .nil, y => y
  | .cons v r, y => .cons v (appE r y)

def appF : Fields → Fields → Fields
  | .nil, y => y
  | .cons k v r, y => .cons k v (appF r y)

theorem appE_snoc (acc : Elems) (v : Json) (r : Elems) :
    appE (acc.snoc v) r = appE acc (.cons v r) := by
  match acc with
  | .nil => rfl
  | .cons w acc => simp [Elems.snoc, appE, appE_snoc acc v r]

theorem appE_nil (acc : Elems) : appE acc .nil = acc := by
  match acc with
  | .nil => rfl
  | .cons w acc => simp [appE, appE_nil acc]

theorem appF_nil (acc : Fields) : appF acc .nil = acc := by
  match acc with
  | .nil => rfl
  | .cons k w acc => simp [appF, appF_nil acc]

theorem appF_assoc (a b c : Fields) : appF (appF a b) c = appF a (appF b c) := by
  match a with
  | .nil => rfl
  | .cons k w a => simp [appF, appF_assoc a b c]

/-- Every key is smaller. -/
def Below : Fields → Str → Prop
  | .nil, _ => True
  | .cons k' _ r, k => k' < k ∧ Below r k

theorem insert_below (acc : Fields) (k : Str) (v : Json) (h : Below acc k) :
    acc.insert k v = appF acc (.cons k v .nil) := by
  match acc with
  | .nil => rfl
  | .cons k' w r =>
    obtain ⟨h1, h2⟩ := h
    have h3 : ¬ k < k' := not_lt_of_gt h1
    have h4 : k ≠ k' := ne_of_gt h1
    simp only [Fields.insert, h3, h4, if_false, appF, insert_below r k v h2]

theorem below_app (a b : Fields) (k : Str) (ha : Below a k) (hb : Below b k) :
    Below (appF a b) k := by
  match a with
  | .nil => exact hb
  | .cons k' w r => exact ⟨ha.1, below_app r b k ha.2 hb⟩

theorem below_trans (a : Fields) {k k' : Str} (ha : Below a k) (h : k < k') : Below a k' := by
  match a with
  | .nil => trivial
  | .cons x w r => exact ⟨lt_trans ha.1 h, below_trans r ha.2 h⟩

end Verif.Lemmas.Json
