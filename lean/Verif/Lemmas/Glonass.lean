import Verif.Model.Glonass
import Verif.Spec.Glonass
import Verif.Props.BitTools
import Mathlib.Data.List.Induction
/-! Lemmas for glonass.cxx -/
namespace Verif.Glonass
open Verif.Bits Verif.BitSpec Verif.GlonassSpec Verif.Props.BitTools

/-! ### Reading the string -/

theorem swapped_get (m : List UInt8) (i : Nat) (h : i < 16) :
    ofList (swapped m) i = some (byteAt m i) := by
  unfold ofList swapped byteAt
  rw [List.getElem?_map, List.getElem?_range h]; rfl

theorem swapped_getD (m : List UInt8) :
    (fun i => (swapped m).getD i 0) = fun i => if i < 16 then byteAt m i else 0 := by
  funext i
  by_cases h : i < 16
  · rw [if_pos h, List.getD_eq_getElem?_getD]
    have := swapped_get m i h
    unfold ofList at this
    rw [this]; rfl
  · rw [if_neg h, List.getD_eq_getElem?_getD, List.getElem?_eq_none (by simp [swapped]; omega)]; rfl

theorem field_U (m : List UInt8) (hi lo : Nat) (h : hi ≤ 85) :
    field (byteAt m) (85 - hi) (hi + 1 - lo) = U m hi lo := by
  rw [field_eq_number, U]
  congr 1
  apply List.map_congr_left
  intro i hi'
  rw [List.mem_range] at hi'
  rw [bit_msg, strBit, show 85 - hi + i = 85 - (hi - i) by omega]

theorem get_U (m : List UInt8) (pos len hi lo : Nat) (h1 : pos = 85 - hi) (h2 : len = hi + 1 - lo)
    (h3 : hi ≤ 85) (h4 : 1 ≤ lo) (h5 : lo ≤ hi) (h6 : hi + 1 - lo ≤ 56) :
    getBit (ofList (swapped m)) pos len = some (U m hi lo) := by
  rw [(C12_getBit _ (byteAt m) pos len (by omega) (by omega)
    (fun r _ hr => swapped_get m r (by omega))).1, h1, h2, field_U m hi lo h3]

theorem get_S (m : List UInt8) (pos len hi lo : Nat) (h1 : pos = 85 - hi) (h2 : len = hi + 1 - lo)
    (h3 : hi ≤ 85) (h4 : 1 ≤ lo) (h5 : lo < hi) (h6 : hi + 1 - lo ≤ 56) :
    getBitGlo (ofList (swapped m)) pos len = some (S m hi lo) := by
  have e := field_U m (hi - 1) lo (by omega)
  rw [C14_getBitGlo _ (byteAt m) pos len (by omega) (by omega)
    (fun r _ hr => swapped_get m r (by omega)), S, strBit, ← bit_msg, ← e,
    show pos + 1 = 85 - (hi - 1) by omega, show len - 1 = hi - 1 + 1 - lo by omega, h1]

theorem decode1_spec (m : List UInt8) : decode1 (ofList (swapped m)) = some (str1 m) := by
  unfold decode1
  rw [get_U m 9 5 76 72 rfl rfl (by omega) (by omega) (by omega) (by omega),
    get_U m 14 6 71 66 rfl rfl (by omega) (by omega) (by omega) (by omega),
    get_U m 20 1 65 65 rfl rfl (by omega) (by omega) (by omega) (by omega),
    get_S m 21 24 64 41 rfl rfl (by omega) (by omega) (by omega) (by omega),
    get_S m 45 5 40 36 rfl rfl (by omega) (by omega) (by omega) (by omega),
    get_S m 50 27 35 9 rfl rfl (by omega) (by omega) (by omega) (by omega)]
  simp only [Option.bind_eq_bind, Option.bind_some, str1, Nat.mul_comm]

theorem decode2_spec (m : List UInt8) : decode2 (ofList (swapped m)) = some (str2 m) := by
  unfold decode2
  rw [get_U m 5 3 80 78 rfl rfl (by omega) (by omega) (by omega) (by omega),
    get_U m 9 7 76 70 rfl rfl (by omega) (by omega) (by omega) (by omega),
    get_S m 21 24 64 41 rfl rfl (by omega) (by omega) (by omega) (by omega),
    get_S m 45 5 40 36 rfl rfl (by omega) (by omega) (by omega) (by omega),
    get_S m 50 27 35 9 rfl rfl (by omega) (by omega) (by omega) (by omega)]
  simp only [Option.bind_eq_bind, Option.bind_some, str2]

theorem decode3_spec (m : List UInt8) : decode3 (ofList (swapped m)) = some (str3 m) := by
  unfold decode3
  rw [get_S m 6 11 79 69 rfl rfl (by omega) (by omega) (by omega) (by omega),
    get_S m 21 24 64 41 rfl rfl (by omega) (by omega) (by omega) (by omega),
    get_S m 45 5 40 36 rfl rfl (by omega) (by omega) (by omega) (by omega),
    get_S m 50 27 35 9 rfl rfl (by omega) (by omega) (by omega) (by omega)]
  simp only [Option.bind_eq_bind, Option.bind_some, str3]

theorem decode4_spec (m : List UInt8) : decode4 (ofList (swapped m)) = some (str4 m) := by
  unfold decode4
  rw [get_S m 5 22 80 59 rfl rfl (by omega) (by omega) (by omega) (by omega),
    get_S m 27 5 58 54 rfl rfl (by omega) (by omega) (by omega) (by omega),
    get_U m 32 5 53 49 rfl rfl (by omega) (by omega) (by omega) (by omega),
    get_U m 52 4 33 30 rfl rfl (by omega) (by omega) (by omega) (by omega),
    get_U m 59 11 26 16 rfl rfl (by omega) (by omega) (by omega) (by omega),
    get_U m 70 5 15 11 rfl rfl (by omega) (by omega) (by omega) (by omega)]
  simp only [Option.bind_eq_bind, Option.bind_some, str4]

theorem decode5_spec (m : List UInt8) : decode5 (ofList (swapped m)) = some (str5 m) := by
  unfold decode5
  rw [get_U m 5 11 80 70 rfl rfl (by omega) (by omega) (by omega) (by omega),
    get_U m 49 5 36 32 rfl rfl (by omega) (by omega) (by omega) (by omega)]
  simp only [Option.bind_eq_bind, Option.bind_some, str5]

theorem mark_spec (m : List UInt8) :
    ((byteAt m 12).toNat * 2 ^ 8) % 2 ^ 16 ||| (byteAt m 13).toNat = mark m := by
  have h0 : (m.getD 12 0).toNat < 256 := UInt8.toNat_lt _
  have h1 : (m.getD 13 0).toNat < 256 := UInt8.toNat_lt _
  have h2 : (m.getD 14 0).toNat < 256 := UInt8.toNat_lt _
  have h3 : (m.getD 15 0).toNat < 256 := UInt8.toNat_lt _
  show ((m.getD 15 0).toNat * 2 ^ 8) % 2 ^ 16 ||| (m.getD 14 0).toNat = mark m
  rw [Nat.mod_eq_of_lt (by omega), Nat.mul_comm, ← Nat.two_pow_add_eq_or_of_lt (by omega)]
  show _ = ((m.getD 12 0).toNat + 2 ^ 8 * (m.getD 13 0).toNat
    + 2 ^ 16 * (m.getD 14 0).toNat + 2 ^ 24 * (m.getD 15 0).toNat) / 2 ^ 16
  omega

/-- The object after a string has been taken in, before `convertTime`. -/
def mid (m : List UInt8) (e : Eph) : Eph :=
  let fl := if mark m = e.mark then e.flags else 0
  let e := { e with mark := mark m }
  if num m = 1 then { e with s1 := str1 m, flags := fl ||| 1 }
  else if num m = 2 then { e with s2 := str2 m, flags := fl ||| 2 }
  else if num m = 3 then { e with s3 := str3 m, flags := fl ||| 4 }
  else if num m = 4 then { e with s4 := str4 m, flags := fl ||| 8 }
  else { e with s5 := str5 m, flags := fl ||| 16 }

theorem parse_eq (m : List UInt8) (e : Eph) :
    parse m e = if Valid m then
      (if num m = 3 ∨ num m = 4 then some (mid m e) else convertTime (mid m e)).map
        fun e' => (decide (e'.flags = 31 ∧ num m = 5), e')
    else some (false, e) := by
  unfold parse
  by_cases hl : 16 ≤ m.length
  case neg => rw [if_pos (by omega), if_neg (by unfold Valid; tauto)]
  rw [if_neg (by omega)]
  simp only [swapped_getD]
  by_cases hg : Crc.gloTest (fun i => if i < 16 then byteAt m i else 0) = true
  case neg => rw [if_pos hg, if_neg (by unfold Valid; tauto)]
  have hn : getBit (ofList (swapped m)) 1 4 = some (num m) :=
    get_U m 1 4 84 81 rfl rfl (by omega) (by omega) (by omega) (by omega)
  rw [if_neg (by simpa using hg), hn]
  simp only [Option.bind_eq_bind, Option.bind_some]
  by_cases hr : 1 ≤ num m ∧ num m ≤ 5
  case neg => rw [if_pos (by omega), if_neg (by unfold Valid; tauto)]
  rw [if_neg (by omega), swapped_get m 12 (by omega), swapped_get m 13 (by omega)]
  simp only [Option.bind_some, mark_spec]
  rw [if_pos (show Valid m from ⟨hl, hg, hr.1, hr.2⟩)]
  have fl : (if GlonassSpec.mark m ≠ e.mark then 0 else e.flags)
      = if GlonassSpec.mark m = e.mark then e.flags else 0 := by
    by_cases c : GlonassSpec.mark m = e.mark <;> simp [c]
  rw [fl]
  have fr : frame (num m) (ofList (swapped m)) { e with
      flags := if GlonassSpec.mark m = e.mark then e.flags else 0, mark := GlonassSpec.mark m } =
      if num m = 3 ∨ num m = 4 then some (mid m e) else convertTime (mid m e) := by
    unfold frame mid
    simp only [decode1_spec, decode2_spec, decode3_spec, decode4_spec, decode5_spec,
      Option.bind_eq_bind, Option.bind_some]
    have : num m = 1 ∨ num m = 2 ∨ num m = 3 ∨ num m = 4 ∨ num m = 5 := by omega
    rcases this with x | x | x | x | x <;> simp [x]
  rw [fr]
  cases (if num m = 3 ∨ num m = 4 then some (mid m e) else convertTime (mid m e)) with
  | none => rfl
  | some x =>
    rw [Option.bind_some, Option.map_some]
    unfold finish
    by_cases a : x.flags = 31 <;> by_cases b : num m = 5 <;> simp [a, b]

/-! ### Times -/

/-- `convertTime` where it is defined. -/
def conv (e : Eph) : Eph :=
  if got e 4 = true ∧ got e 5 = true then
    { e with tof := if got e 1 then
                      ⟨dayStart e.s5.N4 e.s5.NA + (e.s1.tk_h * 3600 + e.s1.tk_m * 60 + e.s1.tk_s), 0⟩
                    else e.tof,
             toe := if got e 2 then ⟨dayStart e.s5.N4 e.s5.NA + e.s2.tb * 900, 0⟩ else e.toe }
  else e

theorem convertTime_eq (e : Eph)
    (h : got e 4 = true → got e 5 = true → e.s5.N4 < 19 ∧ e.s5.NA < 2 ^ 11)
    (h1 : got e 1 = true → e.s1.tk_h < 2 ^ 5 ∧ e.s1.tk_m < 2 ^ 6 ∧ e.s1.tk_s ≤ 30)
    (h2 : got e 2 = true → e.s2.tb < 2 ^ 7) : convertTime e = some (conv e) := by
  unfold convertTime conv
  by_cases c4 : got e 4 = true
  case neg => rw [if_pos (Or.inl c4), if_neg (by tauto)]
  by_cases c5 : got e 5 = true
  case neg => rw [if_pos (Or.inr c5), if_neg (by tauto)]
  rw [if_neg (by tauto), if_pos ⟨c4, c5⟩]
  have hi : ∀ x : Int, -2 ^ 63 ≤ x → x < 2 ^ 63 → Utc.i64 x = some x := fun x a b => if_pos ⟨a, b⟩
  have hj : ∀ x : Int, -2 ^ 31 ≤ x → x < 2 ^ 31 → Utc.i32 x = some x := fun x a b => if_pos ⟨a, b⟩
  obtain ⟨hN, hA⟩ := h c4 c5
  simp only [addInt, Jan1_1996, Option.bind_eq_bind]
  rw [hj _ (by omega) (by omega), Option.bind_some, hi _ (by omega) (by omega)]
  simp only [Option.bind_some]
  rw [hi _ (by omega) (by omega)]
  simp only [Option.bind_some]
  rw [hj _ (by omega) (by omega)]
  simp only [Option.bind_some]
  rw [hi _ (by omega) (by omega)]
  simp only [Option.bind_some]
  have e1 : stamp (got e 1) ⟨820454400 + ((e.s5.N4 : Int) - 1) * (3 * 31536000 + 31622400)
      + -(3 * 3600) + ((e.s5.NA : Int) - 1) * 86400, 0⟩
      (↑e.s1.tk_h * 3600 + ↑e.s1.tk_m * 60 + ↑e.s1.tk_s) e.tof = some (if got e 1 then
        ⟨dayStart e.s5.N4 e.s5.NA + (e.s1.tk_h * 3600 + e.s1.tk_m * 60 + e.s1.tk_s), 0⟩
          else e.tof) := by
    unfold stamp addInt
    by_cases c1 : got e 1 = true
    · obtain ⟨a, b, c⟩ := h1 c1
      rw [if_pos c1, if_pos c1, hi _ (by simp only; omega) (by simp only; omega)]
      simp only [dayStart, Option.bind_eq_bind, Option.bind_some, Option.some.injEq,
        Utc.Time.mk.injEq, and_true]
      omega
    · rw [if_neg c1, if_neg c1]
  have e2 : stamp (got e 2) ⟨820454400 + ((e.s5.N4 : Int) - 1) * (3 * 31536000 + 31622400)
      + -(3 * 3600) + ((e.s5.NA : Int) - 1) * 86400, 0⟩ (↑e.s2.tb * 60 * 15) e.toe =
      some (if got e 2 then ⟨dayStart e.s5.N4 e.s5.NA + e.s2.tb * 900, 0⟩ else e.toe) := by
    unfold stamp addInt
    by_cases c2 : got e 2 = true
    · have a := h2 c2
      rw [if_pos c2, if_pos c2, hi _ (by simp only; omega) (by simp only; omega)]
      simp only [dayStart, Option.bind_eq_bind, Option.bind_some, Option.some.injEq,
        Utc.Time.mk.injEq, and_true]
      omega
    · rw [if_neg c2, if_neg c2]
  rw [e1, Option.bind_some, e2, Option.bind_some]

/-! ### Histories -/

theorem U_lt (m : List UInt8) (hi lo : Nat) : U m hi lo < 2 ^ (hi + 1 - lo) := by
  have key : ∀ n, number ((List.range n).map fun i => strBit m (hi - i)) < 2 ^ n := by
    intro n
    induction n with
    | zero => simp [number]
    | succ n ih =>
      rw [List.range_succ, List.map_append, List.map_singleton, number_append, Nat.pow_succ]
      have : strBit m (hi - n) < 2 := Nat.mod_lt _ (by omega)
      omega
  exact key _

/-- 1 if something was received. -/
def ind {α : Type} (o : Option α) : Nat := if o.isSome then 1 else 0

theorem ind_lt {α : Type} (o : Option α) : ind o < 2 := by unfold ind; split <;> omega

/-- Flags for the strings of a list. -/
def flagsOf (l : List (List UInt8)) : Nat :=
  ind (lastStr 1 l) + 2 * ind (lastStr 2 l) + 4 * ind (lastStr 3 l) + 8 * ind (lastStr 4 l)
    + 16 * ind (lastStr 5 l)

/-- What is true of the object when `l` are the strings of the current era. -/
structure Inv (k : Nat) (l : List (List UInt8)) (e : Eph) : Prop where
  mark : e.mark = k
  flags : e.flags = flagsOf l
  s1 : ∀ f, lastStr 1 l = some f → e.s1 = str1 f
  s2 : ∀ f, lastStr 2 l = some f → e.s2 = str2 f
  s3 : ∀ f, lastStr 3 l = some f → e.s3 = str3 f
  s4 : ∀ f, lastStr 4 l = some f → e.s4 = str4 f
  s5 : ∀ f, lastStr 5 l = some f → e.s5 = str5 f

theorem lastStr_append (n : Nat) (h : List (List UInt8)) (m : List UInt8) :
    lastStr n (h ++ [m]) = if num m = n then some m else lastStr n h := by
  unfold lastStr
  rw [List.reverse_append, List.reverse_singleton, List.singleton_append, List.find?_cons]
  by_cases c : num m = n <;> simp [c]

theorem flags_or : ∀ a, a < 2 → ∀ b, b < 2 → ∀ c, c < 2 → ∀ d, d < 2 → ∀ f, f < 2 →
    (a + 2 * b + 4 * c + 8 * d + 16 * f) ||| 1 = 1 + 2 * b + 4 * c + 8 * d + 16 * f ∧
    (a + 2 * b + 4 * c + 8 * d + 16 * f) ||| 2 = a + 2 * 1 + 4 * c + 8 * d + 16 * f ∧
    (a + 2 * b + 4 * c + 8 * d + 16 * f) ||| 4 = a + 2 * b + 4 * 1 + 8 * d + 16 * f ∧
    (a + 2 * b + 4 * c + 8 * d + 16 * f) ||| 8 = a + 2 * b + 4 * c + 8 * 1 + 16 * f ∧
    (a + 2 * b + 4 * c + 8 * d + 16 * f) ||| 16 = a + 2 * b + 4 * c + 8 * d + 16 * 1 := by
  intro a ha b hb c hc d hd f hf
  interval_cases a <;> interval_cases b <;> interval_cases c <;> interval_cases d <;>
    interval_cases f <;> decide

theorem flags_bit : ∀ a, a < 2 → ∀ b, b < 2 → ∀ c, c < 2 → ∀ d, d < 2 → ∀ f, f < 2 →
    ((a + 2 * b + 4 * c + 8 * d + 16 * f).testBit 0 = true ↔ a = 1) ∧
    ((a + 2 * b + 4 * c + 8 * d + 16 * f).testBit 1 = true ↔ b = 1) ∧
    ((a + 2 * b + 4 * c + 8 * d + 16 * f).testBit 2 = true ↔ c = 1) ∧
    ((a + 2 * b + 4 * c + 8 * d + 16 * f).testBit 3 = true ↔ d = 1) ∧
    ((a + 2 * b + 4 * c + 8 * d + 16 * f).testBit 4 = true ↔ f = 1) := by
  intro a ha b hb c hc d hd f hf
  interval_cases a <;> interval_cases b <;> interval_cases c <;> interval_cases d <;>
    interval_cases f <;> decide

theorem ind_some (o : Option (List UInt8)) (h : ind o = 1) : ∃ f, o = some f := by
  cases o with
  | none => exact absurd h (by decide)
  | some f => exact ⟨f, rfl⟩

/-- Taking a string in while the mark stays. -/
theorem inv_mid_same {k : Nat} {l : List (List UInt8)} {e : Eph} (hi : Inv k l e) (m : List UInt8)
    (hk : GlonassSpec.mark m = k) (h1 : 1 ≤ num m) (h5 : num m ≤ 5) :
    Inv k (l ++ [m]) (mid m e) := by
  have co := flags_or _ (ind_lt (lastStr 1 l)) _ (ind_lt (lastStr 2 l)) _ (ind_lt (lastStr 3 l))
    _ (ind_lt (lastStr 4 l)) _ (ind_lt (lastStr 5 l))
  have hf := hi.flags
  have hm := hi.mark
  unfold flagsOf at hf
  unfold mid
  have : num m = 1 ∨ num m = 2 ∨ num m = 3 ∨ num m = 4 ∨ num m = 5 := by omega
  rcases this with x | x | x | x | x
  all_goals
    constructor <;> simp only [x, lastStr_append, flagsOf, hk, hm, if_true, reduceIte,
      Nat.reduceEqDiff, OfNat.ofNat_ne_one]
  all_goals first
    | (rw [hf]; first | exact co.1 | exact co.2.1 | exact co.2.2.1 | exact co.2.2.2.1 | exact co.2.2.2.2)
    | exact hi.s1 | exact hi.s2 | exact hi.s3 | exact hi.s4 | exact hi.s5
    | (rintro f ⟨rfl⟩; rfl)

theorem inv_nil {e : Eph} (k : Nat) (h : e.flags = 0) (hm : e.mark = k) : Inv k [] e :=
  ⟨hm, h, by simp [lastStr], by simp [lastStr], by simp [lastStr], by simp [lastStr],
    by simp [lastStr]⟩

/-- Taking a string in when the mark changes: the flags start from 0. -/
theorem mid_new (m : List UInt8) (e : Eph) (h : GlonassSpec.mark m ≠ e.mark) :
    mid m e = mid m { e with flags := 0, mark := GlonassSpec.mark m } := by
  unfold mid
  simp [h]

theorem inv_mid {h : List (List UInt8)} {e : Eph} (hi : Inv (era h).1 (era h).2 e) (m : List UInt8)
    (hv : Valid m) : Inv (era (h ++ [m])).1 (era (h ++ [m])).2 (mid m e) := by
  unfold era at *
  rw [List.foldl_append, List.foldl_cons, List.foldl_nil, if_pos hv]
  generalize List.foldl _ _ h = s at *
  by_cases c : GlonassSpec.mark m = s.1
  · rw [if_pos c]
    have := inv_mid_same hi m c hv.2.2.1 hv.2.2.2
    rw [← c] at this; exact this
  · rw [if_neg c, mid_new m e (by rw [hi.mark]; exact c)]
    exact inv_mid_same (l := []) (inv_nil (GlonassSpec.mark m) rfl rfl) m rfl hv.2.2.1 hv.2.2.2

theorem inv_conv {k : Nat} {l : List (List UInt8)} {e : Eph} (hi : Inv k l e) :
    Inv k l (conv e) := by
  unfold conv
  split
  · exact ⟨hi.mark, hi.flags, hi.s1, hi.s2, hi.s3, hi.s4, hi.s5⟩
  · exact hi

theorem got_iff {k : Nat} {l : List (List UInt8)} {e : Eph} (hi : Inv k l e) :
    (got e 1 = true ↔ ind (lastStr 1 l) = 1) ∧ (got e 2 = true ↔ ind (lastStr 2 l) = 1) ∧
    (got e 3 = true ↔ ind (lastStr 3 l) = 1) ∧ (got e 4 = true ↔ ind (lastStr 4 l) = 1) ∧
    (got e 5 = true ↔ ind (lastStr 5 l) = 1) := by
  unfold got
  rw [hi.flags]
  exact flags_bit _ (ind_lt _) _ (ind_lt _) _ (ind_lt _) _ (ind_lt _) _ (ind_lt _)

theorem lastStr_mem {n : Nat} {h : List (List UInt8)} {f : List UInt8} (e : lastStr n h = some f) :
    f ∈ h ∧ num f = n := by
  unfold lastStr at e
  exact ⟨List.mem_reverse.1 (List.mem_of_find?_eq_some e), by simpa using List.find?_some e⟩

theorem era_sub (h : List (List UInt8)) : ∀ f ∈ (era h).2, f ∈ h ∧ Valid f := by
  unfold era
  induction h using List.reverseRecOn with
  | nil => simp
  | append_singleton h m ih =>
    rw [List.foldl_append, List.foldl_cons, List.foldl_nil]
    generalize List.foldl _ _ h = s at *
    intro f hf
    by_cases hv : Valid m
    · rw [if_pos hv] at hf
      by_cases c : GlonassSpec.mark m = s.1
      · rw [if_pos c] at hf
        simp only [List.mem_append, List.mem_singleton] at hf
        rcases hf with hf | rfl
        · exact ⟨by simp [(ih f hf).1], (ih f hf).2⟩
        · exact ⟨by simp, hv⟩
      · rw [if_neg c] at hf
        simp only [List.mem_singleton] at hf
        subst hf; exact ⟨by simp, hv⟩
    · rw [if_neg hv] at hf
      exact ⟨by simp [(ih f hf).1], (ih f hf).2⟩

/-- The four-year intervals announced are below 19. -/
def Early (h : List (List UInt8)) : Prop := ∀ m ∈ h, Valid m → num m = 5 → (str5 m).N4 < 19

theorem conv_ok {h : List (List UInt8)} {e : Eph} {k : Nat} (he : Early h)
    (hi : Inv k (era h).2 e) : convertTime e = some (conv e) := by
  have g := got_iff hi
  apply convertTime_eq
  · intro _ h5
    obtain ⟨f, hf⟩ := ind_some _ (g.2.2.2.2.1 h5)
    rw [hi.s5 f hf]
    have hm := lastStr_mem hf
    have hv := era_sub h f hm.1
    exact ⟨he f hv.1 hv.2 hm.2, U_lt f 80 70⟩
  · intro h1
    obtain ⟨f, hf⟩ := ind_some _ (g.1.1 h1)
    rw [hi.s1 f hf]
    refine ⟨U_lt f 76 72, U_lt f 71 66, ?_⟩
    have : U f 65 65 < 2 := U_lt f 65 65
    show 30 * U f 65 65 ≤ 30
    omega
  · intro h2
    obtain ⟨f, hf⟩ := ind_some _ (g.2.1.1 h2)
    rw [hi.s2 f hf]
    exact U_lt f 76 70

/-- The object after any message. -/
def next (m : List UInt8) (e : Eph) : Eph :=
  if Valid m then if num m = 3 ∨ num m = 4 then mid m e else conv (mid m e) else e

theorem parse_step {h : List (List UInt8)} {e : Eph} (hi : Inv (era h).1 (era h).2 e)
    (m : List UInt8) (he : Early (h ++ [m])) :
    parse m e = some (decide (Valid m ∧ (next m e).flags = 31 ∧ num m = 5), next m e) ∧
      Inv (era (h ++ [m])).1 (era (h ++ [m])).2 (next m e) := by
  rw [parse_eq]
  unfold next
  by_cases hv : Valid m
  · have ht := inv_mid hi m hv
    simp only [hv, if_true, true_and]
    by_cases c : num m = 3 ∨ num m = 4
    · simp only [if_pos c, Option.map_some]; exact ⟨trivial, ht⟩
    · simp only [if_neg c, conv_ok he ht, Option.map_some]; exact ⟨trivial, inv_conv ht⟩
  · simp only [hv, if_false, false_and, decide_false, true_and]
    have : era (h ++ [m]) = era h := by
      unfold era; rw [List.foldl_append, List.foldl_cons, List.foldl_nil, if_neg hv]
    rw [this]; exact hi

/-- The object after a history. -/
def simAll (h : List (List UInt8)) (e : Eph) : Eph := h.foldl (fun e m => next m e) e

theorem observe_sim {e0 : Eph} (h0 : Fresh e0) (h : List (List UInt8)) :
    Early h → observe e0 h = some (simAll h e0) ∧ Inv (era h).1 (era h).2 (simAll h e0) := by
  induction h using List.reverseRecOn with
  | nil => intro _; exact ⟨rfl, inv_nil _ h0.1 h0.2⟩
  | append_singleton h m ih =>
    intro he
    obtain ⟨a, b⟩ := ih (fun x hx => he x (by simp [hx]))
    have c := parse_step b m he
    unfold observe at *
    have hs : simAll (h ++ [m]) e0 = next m (simAll h e0) := by simp [simAll]
    rw [List.foldlM_append, a, hs]
    simp only [Option.bind_eq_bind, Option.bind_some, List.foldlM_cons, List.foldlM_nil,
      Option.pure_def, c.1, Option.map_some]
    exact ⟨trivial, c.2⟩

end Verif.Glonass
