import Verif.Props.Json
import Verif.Spec.JsonText

/-!
# C135: every JSON text is read as its value
-/

namespace Verif.Props.JsonText

open Model.Json Spec.JsonText Lemmas.Json Props.Json
open Spec.Json (Spaces)

theorem spaces_of {w : Str} (h : Blank w) : Spaces w := by
  intro c hc
  rcases h c hc with rfl | rfl | rfl | rfl <;> decide

theorem decimal_value (s : Str) : ∀ a, s.foldl (fun a c => 10 * a + (c - 48)) a = a * 10 ^ s.length + decimal s := by
  induction s with
  | nil => intro a; simp [decimal]
  | cons c s ih =>
    intro a
    rw [List.foldl_cons, ih, decimal, List.length_cons, pow_succ]
    ring

theorem value_eq (s : Str) : value s = decimal s := by
  unfold Model.Json.value
  rw [decimal_value]; simp

theorem digits_digit {ds : Str} (h : Digits ds) : ∀ c ∈ ds, digit c = true := by
  intro c hc
  simp only [digit, decide_eq_true_eq]
  exact h.2 c hc

theorem chars_item (i : Item) (hi : i.Valid) (r val : Str) : chars (i.text ++ r) val = chars r (val ++ [i.char]) := by
  cases i with
  | plain c => exact chars_plain c hi.2.1 hi.2.2 r val
  | _ => simp [Item.text, Item.char, chars]

theorem chars_items (is : List Item) (hi : ∀ i ∈ is, i.Valid) (r val : Str) :
    chars (is.flatMap Item.text ++ 34 :: r) val = .ok (.str (val ++ is.map Item.char)) (some r) := by
  induction is generalizing val with
  | nil => simp [chars]
  | cons i is ih =>
    rw [List.flatMap_cons, List.append_assoc, chars_item i (hi i List.mem_cons_self),
      ih fun x hx => hi x (List.mem_cons_of_mem _ hx)]
    simp

theorem next_quoted (n : Nat) (is : List Item) (hi : ∀ i ∈ is, i.Valid) (r : Str) :
    next (n + 1) (quoted is ++ r) = .ok (.str (is.map Item.char)) (some r) := by
  have e : quoted is ++ r = 34 :: (is.flatMap Item.text ++ 34 :: r) := by simp [quoted]
  rw [e, next, ws_stop (by decide)]
  have := chars_items is hi r []
  simp only [List.nil_append] at this
  simp [this]

/-- The text of a number, without its sign. -/
theorem number_txt (neg : Bool) (s : Str) (hs : ∀ c ∈ s, numCh c = true) {c : Nat} (hc : term c = some true) (r : Str) :
    number ((if neg then [45] else []) ++ s ++ c :: r) =
      finish ((if neg then [45] else []) ++ s) [] 0 (c :: r) := by
  refine number_plain ?_ hc r
  intro x hx
  rcases List.mem_append.1 hx with hx | hx
  · cases neg
    · simp at hx
    · simp at hx; subst hx; decide
  · exact hs x hx

theorem stol_txt (neg : Bool) {ds : Str} (h : Digits ds)
    (hr : decimal ds ≤ if neg then 9223372036854775808 else 9223372036854775807) :
    stol ((if neg then [45] else []) ++ ds) =
      some (if neg then -(decimal ds : Int) else decimal ds) := by
  have hd := digits_digit h
  cases neg with
  | false => simpa [value_eq] using stol_digits hd h.1 (by rw [value_eq]; simpa using hr)
  | true =>
    have hr' : (decimal ds : Int) ≤ 9223372036854775808 := by exact_mod_cast (by simpa using hr)
    unfold stol
    simp only [if_true, List.cons_append, List.nil_append, List.head?_cons, List.tail_cons, takeDigits hd, h.1, if_false,
      value_eq]
    rw [if_pos ⟨by omega, by omega⟩]

theorem stod_txt (neg : Bool) {ds fs : Str} (h : Digits ds) (hf : Digits fs) :
    stod ((if neg then [45] else []) ++ ds ++ 46 :: fs) =
      some (if neg then -((decimal ds : ℚ) + (decimal fs : ℚ) / 10 ^ fs.length)
        else (decimal ds : ℚ) + (decimal fs : ℚ) / 10 ^ fs.length) := by
  have hd := digits_digit h
  have h46 : digit 46 = false := by decide
  have e1 : (ds ++ 46 :: fs).takeWhile digit = ds := by
    rw [List.takeWhile_append_of_pos hd, List.takeWhile_cons_of_neg (by simp [h46])]; simp
  have e2 : (ds ++ 46 :: fs).dropWhile digit = 46 :: fs := by
    rw [List.dropWhile_append_of_pos hd, List.dropWhile_cons_of_neg (by simp [h46])]
  obtain ⟨c, t, hc, hdig⟩ := head_of_digits h.1 hd
  have h45 : (ds ++ 46 :: fs).head? ≠ some 45 := by
    rw [hc]; simp only [List.cons_append, List.head?_cons, ne_eq, Option.some.injEq]
    rintro rfl; simp [digit] at hdig
  unfold stod
  cases neg with
  | false =>
    simp only [Bool.false_eq_true, if_false, List.nil_append, h45, e1, e2, List.head?_cons, if_true, List.tail_cons,
      takeDigits (digits_digit hf), h.1, false_and, value_eq]
  | true =>
    simp only [if_true, List.cons_append, List.nil_append, List.head?_cons, List.tail_cons, e1, e2,
      takeDigits (digits_digit hf), h.1, false_and, if_false, value_eq]

/-- What has to follow: a character that ends a number. -/
def Follows (t : Txt) (rest : Str) : Prop := t.IsNumber → ∃ c r, rest = c :: r ∧ term c = some true

theorem text_head (t : Txt) (h : t.Valid) : ∃ c s, t.text = c :: s ∧ isspace c = some false ∧ c ≠ 93 ∧ c ≠ 125 := by
  have hnum : ∀ (neg : Bool) (ds s : Str), Digits ds → ∃ c s', (if neg then [45] else []) ++ ds ++ s = c :: s' ∧
      isspace c = some false ∧ c ≠ 93 ∧ c ≠ 125 := by
    intro neg ds s hd
    cases neg with
    | true => exact ⟨45, ds ++ s, by simp, by decide⟩
    | false =>
      obtain ⟨c, t, hc, hdig⟩ := head_of_digits hd.1 (digits_digit hd)
      exact ⟨c, t ++ s, by simp [hc], num_space (Or.inl hdig)⟩
  cases t with
  | int neg ds =>
    obtain ⟨c, s, h1, h2⟩ := hnum neg ds [] h.1
    exact ⟨c, s, by rw [Txt.text, ← h1]; simp, h2⟩
  | dec neg ds fs =>
    obtain ⟨c, s, h1, h2⟩ := hnum neg ds (46 :: fs) h.1
    exact ⟨c, s, by rw [Txt.text, ← h1], h2⟩
  | str is => exact ⟨34, _, by rw [Txt.text, quoted], by decide⟩
  | _ => exact ⟨_, _, by rw [Txt.text], by decide⟩

theorem ws_text (t : Txt) (h : t.Valid) (rest : Str) : ws (t.text ++ rest) = some (t.text ++ rest) := by
  obtain ⟨c, s, h1, h2, -⟩ := text_head t h
  rw [h1, List.cons_append, ws_stop h2]

theorem next_num (m : Nat) (neg : Bool) {ds : Str} (hd : Digits ds) (x : Str) :
    next (m + 1) ((if neg then [45] else []) ++ ds ++ x) = number ((if neg then [45] else []) ++ ds ++ x) := by
  cases neg with
  | true => exact next_number m _ 45 (ds ++ x) (by simp) (Or.inr rfl)
  | false =>
    obtain ⟨c, t, hc, hdig⟩ := head_of_digits hd.1 (digits_digit hd)
    exact next_number m _ c (t ++ x) (by simp [hc]) (Or.inl hdig)

/-- The text of elements begins with white space and a character that does not close the array. -/
theorem elems_head (es : TxtE) (h : es.Valid) (rest : Str) :
    ∃ p c s, es.text ++ rest = p ++ c :: s ∧ Spaces p ∧ isspace c = some false ∧ c ≠ 93 := by
  cases es with
  | last w v w' =>
    obtain ⟨hw, hv, -⟩ := h
    obtain ⟨c, s, h1, h2, h3, -⟩ := text_head v hv
    exact ⟨w, c, s ++ w' ++ 93 :: rest, by simp [TxtE.text, h1], spaces_of hw, h2, h3⟩
  | cons w v w' r =>
    obtain ⟨hw, hv, -⟩ := h
    obtain ⟨c, s, h1, h2, h3, -⟩ := text_head v hv
    exact ⟨w, c, s ++ w' ++ 44 :: (r.text ++ rest), by simp [TxtE.text, h1], spaces_of hw, h2, h3⟩

theorem fields_head (fs : TxtF) (h : fs.Valid) (rest : Str) :
    ∃ p s, fs.text ++ rest = p ++ 34 :: s ∧ Spaces p := by
  cases fs with
  | last w k w' u v u' => exact ⟨w, _, by simp [TxtF.text, quoted]; rfl, spaces_of h.1⟩
  | cons w k w' u v u' r => exact ⟨w, _, by simp [TxtF.text, quoted]; rfl, spaces_of h.1⟩

/-- What follows white space and a separator. -/
theorem follows_of (v : Txt) {w : Str} (hw : Blank w) (c : Nat) (hc : term c = some true) (r : Str) :
    Follows v (w ++ c :: r) := by
  intro _
  cases w with
  | nil => exact ⟨c, r, rfl, hc⟩
  | cons b w =>
    refine ⟨b, w ++ c :: r, rfl, ?_⟩
    rcases hw b List.mem_cons_self with rfl | rfl | rfl | rfl <;> decide

mutual
theorem read (t : Txt) (h : t.Valid) (rest : Str) (he : Follows t rest) :
    ∃ N, ∀ n, N ≤ n → next n (t.text ++ rest) = .ok t.value (some rest) := by
  match t, h, he with
  | .null, h, _ =>
    refine ⟨1, fun n hn => ?_⟩
    obtain ⟨m, rfl⟩ : ∃ m, n = m + 1 := ⟨n - 1, by omega⟩
    rw [next, ws_text _ h]
    simp [Txt.text, nothing, Txt.value]
  | .true, h, _ =>
    refine ⟨1, fun n hn => ?_⟩
    obtain ⟨m, rfl⟩ : ∃ m, n = m + 1 := ⟨n - 1, by omega⟩
    rw [next, ws_text _ h]
    simp [Txt.text, boolean, Txt.value]
  | .false, h, _ =>
    refine ⟨1, fun n hn => ?_⟩
    obtain ⟨m, rfl⟩ : ∃ m, n = m + 1 := ⟨n - 1, by omega⟩
    rw [next, ws_text _ h]
    simp [Txt.text, boolean, Txt.value]
  | .str is, h, _ =>
    refine ⟨1, fun n hn => ?_⟩
    obtain ⟨m, rfl⟩ : ∃ m, n = m + 1 := ⟨n - 1, by omega⟩
    rw [Txt.text, next_quoted m is h, Txt.value]
  | .int neg ds, h, he =>
    refine ⟨1, fun n hn => ?_⟩
    obtain ⟨m, rfl⟩ : ∃ m, n = m + 1 := ⟨n - 1, by omega⟩
    obtain ⟨c, r, rfl, hc⟩ := he trivial
    have hd := digits_digit h.1
    have h46 : ((if neg then [45] else []) ++ ds).contains 46 = false := by
      have : 46 ∉ (if neg then [45] else []) ++ ds := by
        intro hx
        rcases List.mem_append.1 hx with hx | hx
        · cases neg <;> simp at hx
        · have := hd 46 hx; simp [digit] at this
      simpa using this
    rw [Txt.text, next_num m neg h.1, number_txt neg ds (fun x hx => numCh_of_digit (hd x hx)) hc, finish, h46,
      stol_txt neg h.1 h.2, Txt.value]
    simp
  | .dec neg ds fs, h, he =>
    refine ⟨1, fun n hn => ?_⟩
    obtain ⟨m, rfl⟩ : ∃ m, n = m + 1 := ⟨n - 1, by omega⟩
    obtain ⟨c, r, rfl, hc⟩ := he trivial
    have hd := digits_digit h.1
    have hf := digits_digit h.2
    have e : (if neg then [45] else []) ++ ds ++ 46 :: fs ++ c :: r =
        (if neg then [45] else []) ++ (ds ++ 46 :: fs) ++ c :: r := by simp
    have e' : (if neg then [45] else []) ++ ds ++ 46 :: fs = (if neg then [45] else []) ++ (ds ++ 46 :: fs) := by simp
    rw [Txt.text, List.append_assoc _ (46 :: fs), next_num m neg h.1, ← List.append_assoc _ (46 :: fs), e,
      number_txt neg _ (fun x hx => by
        rcases List.mem_append.1 hx with hx | hx
        · exact numCh_of_digit (hd x hx)
        · rcases List.mem_cons.1 hx with rfl | hx
          · decide
          · exact numCh_of_digit (hf x hx)) hc, finish, ← e', stod_txt neg h.1 h.2, Txt.value]
    rw [if_pos (by simp)]
    simp
  | .arr0 w, h, _ =>
    refine ⟨1, fun n hn => ?_⟩
    obtain ⟨m, rfl⟩ : ∃ m, n = m + 1 := ⟨n - 1, by omega⟩
    have e : (Txt.arr0 w).text ++ rest = 91 :: (w ++ 93 :: rest) := by simp [Txt.text]
    rw [e, next, ws_stop (by decide)]
    have hw : ws (w ++ 93 :: rest) = some (93 :: rest) := by rw [ws_pad (spaces_of h), ws_stop (by decide)]
    simp [hw, Txt.value]
  | .obj0 w, h, _ =>
    refine ⟨1, fun n hn => ?_⟩
    obtain ⟨m, rfl⟩ : ∃ m, n = m + 1 := ⟨n - 1, by omega⟩
    have e : (Txt.obj0 w).text ++ rest = 123 :: (w ++ 125 :: rest) := by simp [Txt.text]
    rw [e, next, ws_stop (by decide)]
    have hw : ws (w ++ 125 :: rest) = some (125 :: rest) := by rw [ws_pad (spaces_of h), ws_stop (by decide)]
    simp [hw, Txt.value]
  | .arr es, h, _ =>
    obtain ⟨N, hN⟩ := readE es h rest .nil
    refine ⟨N + 1, fun n hn => ?_⟩
    obtain ⟨m, rfl⟩ : ∃ m, n = m + 1 := ⟨n - 1, by omega⟩
    have e : (Txt.arr es).text ++ rest = 91 :: (es.text ++ rest) := by simp [Txt.text]
    obtain ⟨p, c, s, h1, h2, h3, h4⟩ := elems_head es h rest
    have hN' := hN m (by omega)
    rw [h1, elems_pad h2] at hN'
    rw [e, next, ws_stop (by decide), h1]
    simp only [if_true, ws_pad h2, ws_stop h3, List.head?_cons, Option.some.injEq, h4, if_false]
    rw [hN', Txt.value]
    rfl
  | .obj fs, h, _ =>
    obtain ⟨N, hN⟩ := readF fs h rest .nil
    refine ⟨N + 1, fun n hn => ?_⟩
    obtain ⟨m, rfl⟩ : ∃ m, n = m + 1 := ⟨n - 1, by omega⟩
    have e : (Txt.obj fs).text ++ rest = 123 :: (fs.text ++ rest) := by simp [Txt.text]
    obtain ⟨p, s, h1, h2⟩ := fields_head fs h rest
    have hN' := hN m (by omega)
    rw [h1, fields_pad h2] at hN'
    rw [e, next, ws_stop (by decide), h1]
    simp only [show (123 : Nat) ≠ 91 by decide, if_false, if_true, ws_pad h2, ws_stop (show isspace 34 = some false by decide),
      List.head?_cons, Option.some.injEq, show (34 : Nat) ≠ 125 by decide]
    rw [hN', Txt.value]
theorem readE (es : TxtE) (h : es.Valid) (rest : Str) (acc : Elems) :
    ∃ N, ∀ n, N ≤ n → elems n (es.text ++ rest) acc = .ok (.arr (appE acc es.value)) (some rest) := by
  match es, h with
  | .last w v w', ⟨hw, hv, hw'⟩ =>
    obtain ⟨N, hN⟩ := read v hv (w' ++ 93 :: rest) (follows_of v hw' 93 (by decide) rest)
    refine ⟨N + 1, fun n hn => ?_⟩
    obtain ⟨m, rfl⟩ : ∃ m, n = m + 1 := ⟨n - 1, by omega⟩
    have e : (TxtE.last w v w').text ++ rest = w ++ (v.text ++ (w' ++ 93 :: rest)) := by simp [TxtE.text]
    have ha : acc.snoc v.value = appE acc (.cons v.value .nil) := by rw [← appE_snoc, appE_nil]
    rw [e, elems_pad (spaces_of hw), elems, hN m (by omega)]
    simp [ws_pad (spaces_of hw'), ws_stop (show isspace 93 = some false by decide), ha, TxtE.value]
  | .cons w v w' r, ⟨hw, hv, hw', hr⟩ =>
    obtain ⟨N, hN⟩ := read v hv (w' ++ 44 :: (r.text ++ rest)) (follows_of v hw' 44 (by decide) _)
    obtain ⟨M, hM⟩ := readE r hr rest (acc.snoc v.value)
    refine ⟨N + M + 1, fun n hn => ?_⟩
    obtain ⟨m, rfl⟩ : ∃ m, n = m + 1 := ⟨n - 1, by omega⟩
    have e : (TxtE.cons w v w' r).text ++ rest = w ++ (v.text ++ (w' ++ 44 :: (r.text ++ rest))) := by simp [TxtE.text]
    rw [e, elems_pad (spaces_of hw), elems, hN m (by omega)]
    simp only [ws_pad (spaces_of hw'), ws_stop (show isspace 44 = some false by decide), List.head?_cons, if_true,
      List.tail_cons]
    rw [hM m (by omega), appE_snoc, TxtE.value]
theorem readF (fs : TxtF) (h : fs.Valid) (rest : Str) (acc : Fields) :
    ∃ N, ∀ n, N ≤ n → fields n (fs.text ++ rest) acc = .ok (.obj (fs.value acc)) (some rest) := by
  match fs, h with
  | .last w k w' u v u', ⟨hw, hk, hw', hu, hv, hu'⟩ =>
    obtain ⟨N, hN⟩ := read v hv (u' ++ 125 :: rest) (follows_of v hu' 125 (by decide) rest)
    refine ⟨N + 2, fun n hn => ?_⟩
    obtain ⟨m, rfl⟩ : ∃ m, n = m + 2 := ⟨n - 2, by omega⟩
    have e : (TxtF.last w k w' u v u').text ++ rest =
        w ++ (quoted k ++ (w' ++ 58 :: (u ++ (v.text ++ (u' ++ 125 :: rest))))) := by simp [TxtF.text]
    rw [e, fields_pad (spaces_of hw), fields, next_quoted m k hk]
    simp only [ws_pad (spaces_of hw'), ws_stop (show isspace 58 = some false by decide), List.head?_cons, if_true,
      List.tail_cons, ws_pad (spaces_of hu), ws_text v hv, hN (m + 1) (by omega), ws_pad (spaces_of hu'),
      ws_stop (show isspace 125 = some false by decide), Option.some.injEq, show (125 : Nat) ≠ 44 by decide, if_false]
    rw [TxtF.value, Json.toStr]
  | .cons w k w' u v u' r, ⟨hw, hk, hw', hu, hv, hu', hr⟩ =>
    obtain ⟨N, hN⟩ := read v hv (u' ++ 44 :: (r.text ++ rest)) (follows_of v hu' 44 (by decide) _)
    obtain ⟨M, hM⟩ := readF r hr rest (acc.insert (escape (k.map Item.char)) v.value)
    refine ⟨N + M + 2, fun n hn => ?_⟩
    obtain ⟨m, rfl⟩ : ∃ m, n = m + 2 := ⟨n - 2, by omega⟩
    have e : (TxtF.cons w k w' u v u' r).text ++ rest =
        w ++ (quoted k ++ (w' ++ 58 :: (u ++ (v.text ++ (u' ++ 44 :: (r.text ++ rest)))))) := by simp [TxtF.text]
    rw [e, fields_pad (spaces_of hw), fields, next_quoted m k hk]
    simp only [ws_pad (spaces_of hw'), ws_stop (show isspace 58 = some false by decide), List.head?_cons, if_true,
      List.tail_cons, ws_pad (spaces_of hu), ws_text v hv, hN (m + 1) (by omega), ws_pad (spaces_of hu'),
      ws_stop (show isspace 44 = some false by decide)]
    rw [Json.toStr, hM (m + 1) (by omega), TxtF.value]
end

/-- **C135**: every text of the grammar, with any white space before it and between its tokens, is read as the value it stands
for, and what follows is left; a number needs a character behind it. -/
theorem C135_text (t : Txt) (h : t.Valid) (w rest : Str) (hw : Blank w) (he : Follows t rest) :
    load (w ++ (t.text ++ rest)) = .ok t.value (some rest) := by
  obtain ⟨N, hN⟩ := read t h rest he
  have h1 := (C135_ends (w ++ (t.text ++ rest)) (max N (2 * (w ++ (t.text ++ rest)).length + 1)) (le_max_right _ _)).2
  rw [← h1, next_pad (spaces_of hw), hN _ (le_max_left _ _)]

theorem hex_eq (c : Nat) : hex c = decide (Hex c) := by
  by_cases hc : c < 128
  · revert c; decide +kernel
  · have h1 : ¬ Hex c := by
      intro h
      have : ∀ x ∈ "0123456789abcdefABCDEF".toList.map Char.toNat, x < 128 := by decide
      exact hc (this c h)
    simp only [hex, h1, decide_false, decide_eq_false_iff_not]
    omega

/-- **C135** is violated: `\u` and four hexadecimal digits are kept as six characters; with any other four characters the string
that has been read is lost and the reader goes on inside it. -/
theorem C135_escape_violated (is : List Item) (hi : ∀ i ∈ is, i.Valid) (a b c d : Nat) (rest : Str) :
    load (34 :: (is.flatMap Item.text ++ ([92, 117, a, b, c, d] ++ 34 :: rest))) =
      if Hex a ∧ Hex b ∧ Hex c ∧ Hex d then
        .ok (.str (is.map Item.char ++ [92, 117, a, b, c, d])) (some rest)
      else .ok (.str []) (some (117 :: a :: b :: c :: d :: 34 :: rest)) := by
  have key : ∀ val, chars (is.flatMap Item.text ++ ([92, 117, a, b, c, d] ++ 34 :: rest)) val =
      chars ([92, 117, a, b, c, d] ++ 34 :: rest) (val ++ is.map Item.char) := by
    induction is with
    | nil => intro val; simp
    | cons i is ih =>
      intro val
      rw [List.flatMap_cons, List.append_assoc, chars_item i (hi i List.mem_cons_self),
        ih fun x hx => hi x (List.mem_cons_of_mem _ hx)]
      simp
  rw [load, next, ws_stop (by decide)]
  simp only [show (34 : Nat) ≠ 91 by decide, show (34 : Nat) ≠ 123 by decide, if_false, if_true]
  rw [key]
  simp only [List.cons_append, List.nil_append]
  rw [chars]
  simp only [hex_eq, Bool.and_eq_true, decide_eq_true_eq, and_assoc]
  split
  · simp [chars]
  · rfl

/-- `{ "a\/b" : [ 1 , -2.50 ] , "a\/b" : true }` -/
def doc : Txt := .obj (.cons [32] [.plain 97, .slash, .plain 98] [32] [32]
  (.arr (.cons [32] (.int false [49]) [32] (.last [32] (.dec true [50] [53, 48]) [32]))) [32]
  (.last [32] [.plain 97, .slash, .plain 98] [32] [32] .true [32]))

example : doc.Valid := by
  simp [doc, Txt.Valid, TxtF.Valid, TxtE.Valid, Blank, Item.Valid, Digits, decimal]

example : doc.value = .obj (.cons [97, 47, 98] (.bool true) .nil) := by rfl

example : Follows doc [] := fun h => h.elim

end Verif.Props.JsonText
