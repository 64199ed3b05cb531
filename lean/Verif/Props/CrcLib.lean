import Verif.Lemmas.CrcLib
import Verif.Props.Crc

/-!
# C137: the library of cyclic redundancy checks (third_party/crcpp/crc.h)
-/

namespace Verif.Props.CrcLib
open Polynomial Verif.Model.CrcLib Verif.Spec.CrcLib Verif.Lemmas.CrcLib

theorem finalize_lt {p : Params} (h : Fits p) (r : Nat) (b : Bool) :
    finalize p r b < 2 ^ p.width := by
  unfold finalize
  rw [and_bitMask h.one]
  exact Nat.mod_lt _ (by positivity)

/-- The reflection before the final value. -/
theorem finalize_bits {p : Params} (h : Fits p) (r : Nat) :
    bitsOf p.refOut p.width (finalize p r (p.refIn != p.refOut) ^^^ p.xorOut) =
      bitsOf p.refIn p.width r := by
  have hm : ∀ b x, bitsOf b p.width (((x ^^^ p.xorOut) &&& bitMask p.width) ^^^ p.xorOut) =
      bitsOf b p.width x := by
    intro b x
    rw [bitsOf_xor, and_bitMask h.one]
    have : bitsOf b p.width ((x ^^^ p.xorOut) % 2 ^ p.width) = bitsOf b p.width (x ^^^ p.xorOut) := by
      unfold bitsOf
      split
      · exact rpoly_trunc le_rfl _
      · exact poly_trunc le_rfl _
    rw [this, ← bitsOf_xor, Nat.xor_assoc, Nat.xor_self, Nat.xor_zero]
  unfold finalize
  rw [hm]
  cases hi : p.refIn <;> cases ho : p.refOut
  · rfl
  · simp [bitsOf, rpoly_reflect h.le]
  · simp [bitsOf, poly_reflect h.le]
  · rfl

/-- What `UndoFinalize` gives. -/
theorem undo_bits {p : Params} (h : Fits p) (c : Nat) :
    undoFinalize p c (p.refIn != p.refOut) < 2 ^ p.width ∧
    bitsOf p.refIn p.width (undoFinalize p c (p.refIn != p.refOut)) =
      bitsOf p.refOut p.width (c ^^^ p.xorOut) := by
  unfold undoFinalize
  rw [and_bitMask h.one]
  have h1 : (c % 2 ^ p.width) ^^^ p.xorOut < 2 ^ p.width :=
    Nat.xor_lt_two_pow (Nat.mod_lt _ (by positivity)) h.xorOut
  have h2 : ∀ b, bitsOf b p.width ((c % 2 ^ p.width) ^^^ p.xorOut) =
      bitsOf b p.width (c ^^^ p.xorOut) := by
    intro b
    rw [bitsOf_xor, bitsOf_xor]
    congr 1
    unfold bitsOf
    split
    · exact rpoly_trunc le_rfl _
    · exact poly_trunc le_rfl _
  cases hi : p.refIn <;> cases ho : p.refOut
  · exact ⟨by simpa using h1, by simpa using h2 false⟩
  · refine ⟨by simpa using reflect_lt _ _ _, ?_⟩
    rw [← h2 true]
    simp [bitsOf, poly_reflect h.le]
  · refine ⟨by simpa using reflect_lt _ _ _, ?_⟩
    rw [← h2 false]
    simp [bitsOf, rpoly_reflect h.le]
  · exact ⟨by simpa using h1, by simpa using h2 true⟩

theorem bitsOf_inj {b : Bool} {n x y : Nat} (hx : x < 2 ^ n) (hy : y < 2 ^ n)
    (h : bitsOf b n x = bitsOf b n y) : x = y := by
  unfold bitsOf at h
  split at h
  · exact rpoly_inj hx hy h
  · exact poly_inj hx hy h

/-- A message has one check. -/
theorem check_unique {w p x : Nat} {ri ro : Bool} {s : (ZMod 2)[X]} {l : List UInt8} {c d : Nat}
    (hx : x < 2 ^ w) (hc : Check w p x ri ro s l c) (hd : Check w p x ri ro s l d) : c = d := by
  have := bitsOf_inj (Nat.xor_lt_two_pow hc.1 hx) (Nat.xor_lt_two_pow hd.1 hx)
    (hc.2.trans hd.2.symm)
  exact Nat.xor_left_injective this

/-- Every function that computes remainders gives the check. -/
theorem rem_check {p : Params} (h : Fits p) {f : List UInt8 → Nat → Nat} (hf : Rem p f)
    (l : List UInt8) (r : Nat) (hr : p.refIn = true → r < 2 ^ p.width) :
    Check p.width p.poly p.xorOut p.refIn p.refOut (bitsOf p.refIn p.width r) l
      (finalize p (f l r) (p.refIn != p.refOut)) :=
  ⟨finalize_lt h _ _, by rw [finalize_bits h, (hf l r hr).2]⟩

/-- Every width, every polynomial, every message: the check is the remainder of the message, with a
register that begins with the bits of the initial value in the order of the input. -/
theorem C137_remainder (p : Params) (h : Fits p) (l : List UInt8) :
    Check p.width p.poly p.xorOut p.refIn p.refOut (bitsOf p.refIn p.width p.init) l
      (calculate p l) :=
  rem_check h (remainder_rem h) l p.init fun _ => h.init

/-- The table gives the same as the calculation bit by bit. -/
theorem C137_table (p : Params) (h : Fits p) (l : List UInt8) : calculateT p l = calculate p l :=
  check_unique h.xorOut (rem_check h (remainderT_rem h) l p.init fun _ => h.init)
    (C137_remainder p h l)

theorem message_append (refl : Bool) (a b : List UInt8) :
    message refl (a ++ b) = message refl a * X ^ (8 * b.length) + message refl b := by
  induction b using List.reverseRecOn with
  | nil => simp [message]
  | append_singleton b x ih =>
    have e : ∀ l : List UInt8, message refl (l ++ [x]) =
        message refl l * X ^ 8 + bitsOf refl 8 x.toNat := fun l => by simp [message]
    rw [← List.append_assoc, e, e, ih, List.length_append, List.length_singleton, Nat.mul_add,
      pow_add]
    ring

/-- Messages in parts. -/
theorem rem_more {p : Params} (h : Fits p) {f : List UInt8 → Nat → Nat} (hf : Rem p f)
    (a b : List UInt8) :
    finalize p (f b (undoFinalize p (calculate p a) (p.refIn != p.refOut)))
      (p.refIn != p.refOut) = calculate p (a ++ b) := by
  obtain ⟨hu, hb⟩ := undo_bits h (calculate p a)
  have h1 := rem_check h hf b _ fun _ => hu
  have h2 := C137_remainder p h (a ++ b)
  refine check_unique h.xorOut ⟨h1.1, ?_⟩ h2
  rw [h1.2, hb, (C137_remainder p h a).2]
  refine modByMonic_eq_of_dvd_sub (gen_monic _ _) ?_
  generalize bitsOf p.refIn p.width p.init = i
  have e := modByMonic_add_div (i * X ^ (8 * a.length) + message p.refIn a * X ^ p.width)
    (gen p.width p.poly)
  refine ⟨-((i * X ^ (8 * a.length) + message p.refIn a * X ^ p.width) /ₘ gen p.width p.poly *
    X ^ (8 * b.length)), ?_⟩
  rw [message_append, List.length_append, Nat.mul_add, pow_add]
  linear_combination X ^ (8 * b.length) * e

/-- A check continued with further bytes is the check of the whole message, with and without a
table. -/
theorem C137_parts (p : Params) (h : Fits p) (a b : List UInt8) :
    calculateMore p b (calculate p a) = calculate p (a ++ b) ∧
      calculateMoreT p b (calculate p a) = calculate p (a ++ b) :=
  ⟨rem_more h (remainder_rem h) a b, rem_more h (remainderT_rem h) a b⟩

/-- The forms without branches are the same. -/
theorem C137_branchless (bits top q r : Nat) :
    branchlessR bits q r = stepR bits q r ∧ branchlessL bits top q r = stepL bits top q r := by
  constructor
  · unfold branchlessR stepR
    by_cases h : r.testBit 0 = true
    · have h2 : r &&& 1 = 1 := by rw [Nat.and_one_is_mod]; simpa [Nat.testBit_zero] using h
      rw [if_pos ((and_one r).2 h), h2, one_mul]
    · have h2 : r &&& 1 = 0 := by
        by_contra h3
        exact h ((and_one r).1 h3)
      rw [if_neg (fun h3 => h3 h2), h2, zero_mul, Nat.xor_zero]
  · unfold branchlessL stepL
    have e : ((r >>> top) &&& 1) = (r.testBit top).toNat := by
      rw [Nat.and_one_is_mod, Nat.testBit_eq_decide_div_mod_eq, Nat.shiftRight_eq_div_pow]
      rcases Nat.mod_two_eq_zero_or_one (r / 2 ^ top) with h | h <;> simp [h]
    rw [e]
    by_cases h : r.testBit top = true
    · rw [if_pos ((and_top r top).2 h), h]; simp
    · rw [if_neg (fun h3 => h ((and_top r top).1 h3))]
      simp [h]

/-- Numbers of the width survive `Finalize` and `UndoFinalize`. -/
theorem C137_undo_partial (p : Params) (h : Fits p) (r : Nat) (hr : r < 2 ^ p.width) :
    undoFinalize p (finalize p r (p.refIn != p.refOut)) (p.refIn != p.refOut) = r := by
  obtain ⟨h1, h2⟩ := undo_bits h (finalize p r (p.refIn != p.refOut))
  rw [finalize_bits h] at h2
  exact bitsOf_inj h1 hr h2

/-- Errors in at most `width` bits one after the other are detected, wherever they are, if the
polynomial has the constant term 1. -/
theorem C137_burst (p : Params) (h : Fits p) (h1 : p.poly.testBit 0 = true) (a b : List UInt8)
    (hlen : a.length = b.length) (j : Nat) (e : (ZMod 2)[X])
    (he : message p.refIn a - message p.refIn b = X ^ j * e) (hne : e ≠ 0)
    (hd : e.degree < p.width) : calculate p a ≠ calculate p b := by
  intro heq
  have ha := (C137_remainder p h a).2
  have hb := (C137_remainder p h b).2
  rw [heq, hb, hlen] at ha
  have hdvd : gen p.width p.poly ∣ X ^ (p.width + j) * e := by
    have e1 := modByMonic_add_div (bitsOf p.refIn p.width p.init * X ^ (8 * b.length) +
      message p.refIn a * X ^ p.width) (gen p.width p.poly)
    have e2 := modByMonic_add_div (bitsOf p.refIn p.width p.init * X ^ (8 * b.length) +
      message p.refIn b * X ^ p.width) (gen p.width p.poly)
    rw [ha] at e2
    refine ⟨(bitsOf p.refIn p.width p.init * X ^ (8 * b.length) +
      message p.refIn a * X ^ p.width) /ₘ gen p.width p.poly -
      (bitsOf p.refIn p.width p.init * X ^ (8 * b.length) +
      message p.refIn b * X ^ p.width) /ₘ gen p.width p.poly, ?_⟩
    rw [pow_add]
    linear_combination e2 - e1 - X ^ p.width * he
  have hco : IsCoprime (gen p.width p.poly) (X ^ (p.width + j)) := by
    refine IsCoprime.pow_right ?_
    have h0 : (gen p.width p.poly).coeff 0 = 1 := by
      rw [gen, coeff_add, coeff_X_pow, poly_coeff, h1, if_neg (by have := h.one; omega),
        if_pos (show 0 < p.width from h.one), zero_add]
      rfl
    have hx : (X : (ZMod 2)[X]) ∣ gen p.width p.poly - 1 := by
      rw [X_dvd_iff, coeff_sub, h0, coeff_one_zero, sub_self]
    obtain ⟨q, hq⟩ := hx
    exact ⟨1, -q, by linear_combination hq⟩
  have h2 := hco.dvd_of_dvd_mul_left hdvd
  have := degree_le_of_dvd h2 hne
  rw [gen_degree] at this
  exact absurd hd (not_lt.2 this)

/-! ## The usual definition -/

/-- The full statement: the usual definition, in which the register begins with the initial value
and only the message is reflected. -/
def C137_statement : Prop :=
  ∀ p l, Fits p →
    Check p.width p.poly p.xorOut p.refIn p.refOut (poly p.width p.init) l (calculate p l)

/-- It holds if the input is not reflected or the initial value is its own mirror image. -/
theorem C137_usual_partial (p : Params) (h : Fits p) (l : List UInt8)
    (hi : p.refIn = true → mirror p.bits p.init p.width = p.init) :
    Check p.width p.poly p.xorOut p.refIn p.refOut (poly p.width p.init) l (calculate p l) := by
  have := C137_remainder p h l
  cases hr : p.refIn with
  | false => rw [hr] at this; exact this
  | true =>
    have e : poly p.width p.init = rpoly p.width p.init := by
      conv_lhs => rw [← hi hr]
      exact poly_reflect h.le _
    rw [hr] at this
    rw [e]
    exact this

/-- Parameters of a check in use (CRC-16/RIELLO): the initial value is not its own mirror image. -/
def riello : Params := ⟨16, 16, 0x1021, 0xB2AA, 0, true, true⟩

theorem riello_fits : Fits riello :=
  ⟨by decide, by decide, by decide, by decide, by decide, by decide⟩

/-- The library does not reflect the initial value with the input: the check of even the empty
message is not the usual one. -/
theorem C137_initial_violated : Fits riello ∧
    ¬ Check riello.width riello.poly riello.xorOut riello.refIn riello.refOut
      (poly riello.width riello.init) [] (calculate riello []) := by
  refine ⟨riello_fits, fun h => ?_⟩
  have h2 := (C137_remainder riello riello_fits []).2
  rw [h.2] at h2
  have e : ∀ s : (ZMod 2)[X], s.degree < riello.width →
      (s * X ^ (8 * ([] : List UInt8).length) + message riello.refIn [] * X ^ riello.width) %ₘ
        gen riello.width riello.poly = s := by
    intro s hs
    rw [show s * X ^ (8 * ([] : List UInt8).length) + message riello.refIn [] * X ^ riello.width = s
      by simp [message]]
    exact (modByMonic_eq_self_iff (gen_monic _ _)).2 (by rw [gen_degree]; exact hs)
  rw [e _ (poly_degree _ _), e _ (bitsOf_degree _ _ _)] at h2
  have := congrArg (fun q => q.coeff 0) h2
  have hw : riello.width = 16 := rfl
  have hi : riello.init = 0xB2AA := rfl
  simp only [bitsOf, show riello.refIn = true from rfl, if_true, poly_coeff, rpoly_coeff, hw, hi]
    at this
  revert this
  decide

theorem C137_statement_false : ¬ C137_statement := fun h =>
  C137_initial_violated.2 (h riello [] riello_fits)

/-- The comment of `UndoFinalize` promises the original remainder always; bits above the width are
lost (`remainder` of the message `1` with the width 9 has such bits). -/
theorem C137_undo_violated :
    ∃ p r, Fits p ∧ r = remainder p [255] p.init ∧
      undoFinalize p (finalize p r (p.refIn != p.refOut)) (p.refIn != p.refOut) ≠ r := by
  refine ⟨⟨9, 16, 1, 0, 0, false, false⟩, _,
    ⟨by decide, by decide, by decide, by decide, by decide, by decide⟩, rfl, by decide⟩

/-! ## The checks the library offers -/

/-- Whether parameters fit, as a computation. -/
def fitsB (p : Params) : Bool :=
  decide (1 ≤ p.width ∧ p.width ≤ p.bits ∧ 8 ≤ p.bits ∧ p.poly < 2 ^ p.width ∧
    p.init < 2 ^ p.width ∧ p.xorOut < 2 ^ p.width)

theorem fits_of {p : Params} (h : fitsB p = true) : Fits p := by
  obtain ⟨h1, h2, h3, h4, h5, h6⟩ := of_decide_eq_true h
  exact ⟨h1, h2, h3, h4, h5, h6⟩

theorem catalogue_ok : (catalogue.all fun q =>
    fitsB q.1 && (!q.1.refIn || decide (mirror q.1.bits q.1.init q.1.width = q.1.init)) &&
      q.1.poly.testBit 0 &&
      decide (calculate q.1 [49, 50, 51, 52, 53, 54, 55, 56, 57] = q.2)) = true := by
  decide +kernel

/-- All 51 checks the library offers are the usual ones for every message, detect every burst of
their width, and have the check values stated. -/
theorem C137_catalogue (q : Params × Nat) (hq : q ∈ catalogue) :
    (∀ l, Check q.1.width q.1.poly q.1.xorOut q.1.refIn q.1.refOut (poly q.1.width q.1.init) l
      (calculate q.1 l)) ∧
    (∀ l, calculateT q.1 l = calculate q.1 l) ∧
    (∀ a b, a.length = b.length → ∀ j e, message q.1.refIn a - message q.1.refIn b = X ^ j * e →
      e ≠ 0 → e.degree < (q.1.width : WithBot Nat) → calculate q.1 a ≠ calculate q.1 b) ∧
    calculate q.1 [49, 50, 51, 52, 53, 54, 55, 56, 57] = q.2 := by
  have h := List.all_eq_true.1 catalogue_ok q hq
  simp only [Bool.and_eq_true, decide_eq_true_eq, Bool.or_eq_true, Bool.not_eq_true'] at h
  obtain ⟨⟨⟨h1, h2⟩, h3⟩, h4⟩ := h
  have hf := fits_of h1
  refine ⟨fun l => C137_usual_partial _ hf l fun hr => ?_, C137_table _ hf, ?_, h4⟩
  · rcases h2 with h2 | h2
    · rw [hr] at h2; simp at h2
    · exact h2
  · intro a b hlen j e he hne hd
    exact C137_burst _ hf h3 a b hlen j e he hne hd

/-- The check of the code (`utils/crc.cxx`) is that of the library with the polynomial of `CRC_24`,
the initial value zero, for every message. -/
theorem C137_crc24 (l : List UInt8) :
    Verif.Crc.crc24 l = some (calculate ⟨24, 32, 0x864CFB, 0, 0, false, false⟩ l) ∧
    Verif.Crc.crc24 l = some (calculateT ⟨24, 32, 0x864CFB, 0, 0, false, false⟩ l) := by
  have hf : Fits ⟨24, 32, 0x864CFB, 0, 0, false, false⟩ :=
    ⟨by decide, by decide, by decide, by decide, by decide, by decide⟩
  rw [C137_table _ hf, and_self]
  obtain ⟨c, h1, h2, h3⟩ := Verif.Props.Crc.C15_crc_is_remainder l
  rw [h1, Option.some.injEq]
  have hnum : ∀ n w, n < 2 ^ w → w ≤ 64 → Verif.CrcSpec.numPoly n = poly w n := by
    intro n w hn hw
    ext i
    unfold Verif.CrcSpec.numPoly
    rw [finsetSum_coeff]
    simp only [coeff_C_mul_X_pow]
    rw [Finset.sum_ite_eq, poly_coeff]
    have e : ∀ b : Bool, ((b.toNat : ZMod 2)) = b2 b := by decide
    by_cases hi : i < w
    · rw [if_pos (Finset.mem_range.2 (by omega)), if_pos hi, e]
    · have : n.testBit i = false :=
        Nat.testBit_lt_two_pow (lt_of_lt_of_le hn (Nat.pow_le_pow_right (by omega) (by omega)))
      rw [if_neg hi, this]
      simp
  have hmsg : ∀ l, Verif.CrcSpec.msgPoly l = message false l := by
    intro l
    induction l using List.reverseRecOn with
    | nil => simp [Verif.CrcSpec.msgPoly, message]
    | append_singleton l x ih =>
      rw [Verif.Crc.msgPoly_snoc, ih, hnum _ 8 x.toNat_lt (by omega)]
      simp [message, bitsOf]
  have hg : Verif.CrcSpec.P = gen 24 0x864CFB := by
    have h25 : poly 25 (1 <<< 24) = X ^ 24 := by
      have : poly 1 1 = 1 := by
        ext i
        rw [poly_coeff, coeff_one]
        by_cases hi : i = 0
        · subst hi; rfl
        · rw [if_neg (by omega), if_neg hi]
      have h := poly_shl 1 24 1
      rw [this] at h
      simpa using h
    have hq : poly 25 0x864CFB = poly 24 0x864CFB := by
      rw [← hnum 0x864CFB 25 (by norm_num) (by omega), ← hnum 0x864CFB 24 (by norm_num) (by omega)]
    have hx : (0x1864CFB : Nat) = (1 <<< 24) ^^^ 0x864CFB := by decide +kernel
    rw [← Verif.Crc.numPoly_G, hnum 0x1864CFB 25 (by norm_num) (by omega), gen, hx, poly_xor, h25,
      hq]
  refine check_unique (w := 24) (p := 0x864CFB) (x := 0) (ri := false) (ro := false)
    (s := bitsOf false 24 0) (l := l) (by norm_num) ⟨h2, ?_⟩ (C137_remainder _ hf l)
  have hz : bitsOf false 24 0 = 0 := by ext i; simp [bitsOf, poly_coeff, b2_false]
  rw [hz, zero_mul, zero_add, ← hmsg, ← hg, ← h3, Nat.xor_zero, hnum c 24 h2 (by omega)]
  rfl

/-! Examples: parameters narrower than a byte, reflected; a message in parts. -/

example : Fits ⟨5, 8, 0x05, 0x1F, 0x1F, true, true⟩ :=
  ⟨by decide, by decide, by decide, by decide, by decide, by decide⟩

example : calculateMore ⟨32, 32, 0x04C11DB7, 0xFFFFFFFF, 0xFFFFFFFF, true, true⟩ [54, 55, 56, 57]
    (calculate ⟨32, 32, 0x04C11DB7, 0xFFFFFFFF, 0xFFFFFFFF, true, true⟩ [49, 50, 51, 52, 53]) =
    0xCBF43926 := by decide +kernel

end Verif.Props.CrcLib
