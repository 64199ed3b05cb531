import Verif.Lemmas.Symb
import Mathlib.Tactic.FinCases
import Mathlib.Tactic.NormNum

/-!
C53: the symbolic block algebra of the filter generator.
-/

namespace Verif.Props.Symb

open Verif.Model.Symb Verif.Model.Symb.Blk Verif.Spec.Symb Verif.Lemmas.Symb

variable {N : ℕ} {V : Val N}

/-! ### Sums -/

theorem addTerms_good {a : Blk} (h : good a) :
    goods a.addTerms ∧ a.addTerms ≠ [] ∧ (∀ t ∈ a.addTerms, t.shape = a.shape) ∧
      ∀ (N : ℕ) (V : Val N), tot V a.addTerms = den V a := by
  cases a with
  | add neg r c ts =>
    rw [good] at h
    obtain ⟨rfl, h1, h2, h3⟩ := h
    exact ⟨h1, h2, h3, fun N V => by rw [den, show sgn false = 1 from rfl, sums_one]; rfl⟩
  | _ =>
    exact ⟨⟨h, trivial⟩, by simp [addTerms], by simp [addTerms], fun N V => by simp [addTerms, tot]⟩

theorem mkAdd_good {a b c : Blk} (ha : good a) (hb : good b) (h : mkAdd a b = some c) :
    good c ∧ c.shape = a.shape ∧ a.shape = b.shape ∧ ∀ (N : ℕ) (V : Val N), den V c = den V a + den V b := by
  unfold mkAdd at h
  split_ifs at h with hs
  obtain rfl := Option.some.inj h
  obtain ⟨a1, a2, a3, a4⟩ := addTerms_good ha
  obtain ⟨b1, b2, b3, b4⟩ := addTerms_good hb
  refine ⟨?_, rfl, hs, fun N V => ?_⟩
  · rw [good]
    refine ⟨rfl, goods_append.2 ⟨a1, b1⟩, by simp [a2], fun t ht => ?_⟩
    rcases List.mem_append.1 ht with ht | ht
    · exact a3 t ht
    · exact (b3 t ht).trans hs.symm
  · rw [den, show sgn false = 1 from rfl, sums_one, tot_append, a4, b4]

theorem den_of_isZero {a : Blk} (h : a.isZero = true) : den V a = 0 := by
  cases a with
  | const neg nm r c =>
    cases nm with
    | zero => rw [den, denName, smul_zero]
    | _ => simp [isZero] at h
  | _ => simp [isZero] at h

/-- Sums mean sums. -/
theorem C53_add_partial {a b c : Blk} (ha : good a) (hb : good b) (h : plus a b = some c) :
    good c ∧ c.shape = a.shape ∧ a.shape = b.shape ∧ ∀ (N : ℕ) (V : Val N), den V c = den V a + den V b := by
  unfold plus at h
  split_ifs at h with h1 h2 h3
  · push Not at h1
    obtain rfl := Option.some.inj h
    exact ⟨hb, h1.symm, h1, fun N V => by rw [den_of_isZero h2, zero_add]⟩
  · push Not at h1
    obtain rfl := Option.some.inj h
    exact ⟨ha, rfl, h1, fun N V => by rw [den_of_isZero h3, add_zero]⟩
  · exact mkAdd_good ha hb h

/-! ### Products -/

theorem chain_head {d e : Dim} {l : List Blk} {f : Blk} (h : chain d l e) (hf : (nonScalar l).head? = some f) :
    f.rows = d := by
  induction l with
  | nil => simp [nonScalar] at hf
  | cons t l ih =>
    cases ht : t.isScalar
    · rw [nonScalar_cons_of_not ht, List.head?_cons] at hf
      rw [chain, if_neg (by simp [ht])] at h
      obtain rfl := Option.some.inj hf
      exact h.1
    · rw [nonScalar_cons_of_scalar ht] at hf
      rw [chain, if_pos ht] at h
      exact ih h hf

theorem chain_last {d e : Dim} {l : List Blk} {f : Blk} (h : chain d l e) (hf : l.getLast? = some f)
    (hs : f.isScalar = false) : f.cols = e := by
  obtain ⟨l', rfl⟩ : ∃ l', l = l' ++ [f] := by
    rw [List.getLast?_eq_some_iff] at hf
    exact hf
  rw [chain_append] at h
  obtain ⟨k, _, h2⟩ := h
  rw [chain, if_neg (by simp [hs])] at h2
  exact h2.2

theorem chain_last_one {l : List Blk} {f : Blk} {d : Dim} (h : chain d l (.num 1)) (hf : l.getLast? = some f) :
    f.cols = .num 1 := by
  cases hs : f.isScalar
  · exact chain_last h hf hs
  · have := isScalar_iff.1 hs
    unfold Blk.cols
    rw [this]

theorem mulTerms_goods {a : Blk} (h : good a) : goods a.mulTerms := by
  cases a with
  | mul neg cm r c ts =>
    rw [good] at h
    exact h.2.1
  | _ => exact ⟨h, trivial⟩

theorem mulTerms_of_not {a : Blk} (h : ∀ n m r c ts, a ≠ .mul n m r c ts) : a.mulTerms = [a] := by
  cases a with
  | mul neg cm r c ts => exact absurd rfl (h neg cm r c ts)
  | _ => rfl

theorem prods_single (a : Blk) : prods V [a] = den V a := by rw [prods, prods, mul_one]

theorem mulTerms_plain {a : Blk} (h : good a) (hs : a.isScalar = false) :
    chain a.rows a.mulTerms a.cols ∧ nonScalar a.mulTerms ≠ [] ∧ ∀ (N : ℕ) (V : Val N), prods V a.mulTerms = den V a := by
  cases a with
  | mul neg cm r c ts =>
    rw [good] at h
    obtain ⟨rfl, h1, h2, h3⟩ := h
    refine ⟨h3, h2, fun N V => ?_⟩
    rw [den, show sgn false = 1 from rfl, one_smul]
    exact (norm_of_ne (not_scalar.1 hs) _).symm
  | _ =>
    refine ⟨?_, ?_, fun N V => prods_single _⟩
    · rw [mulTerms_of_not (by simp), chain, if_neg (by simp [hs])]
      exact ⟨rfl, rfl⟩
    · rw [mulTerms_of_not (by simp), nonScalar_cons_of_not hs]
      simp

theorem mulTerms_scalar {a : Blk} (h : good a) (hs : a.isScalar = true) :
    chain (.num 1) a.mulTerms (.num 1) ∧ ∀ (N : ℕ) (V : Val N), ∃ x : ℝ, den V a = x • 1 ∧
      (prods V a.mulTerms = x • 1 ∧ nonScalar a.mulTerms = [] ∨
        prods V a.mulTerms = x • proj V (.num 1) ∧ nonScalar a.mulTerms ≠ []) := by
  cases a with
  | mul neg cm r c ts =>
    rw [good] at h
    obtain ⟨rfl, h1, h2, h3⟩ := h
    have hs' := isScalar_iff.1 hs
    rw [shape, one1, Prod.mk.injEq] at hs'
    obtain ⟨rfl, rfl⟩ := hs'
    refine ⟨h3, fun N V => ?_⟩
    have hp := prods_fit (V := V) (fits ts h1) h2 h3
    obtain ⟨x, hx⟩ := pfit_one hp
    refine ⟨x, ?_, Or.inr ⟨hx, h2⟩⟩
    rw [den, show sgn false = 1 from rfl, one_smul, hx, norm_one_proj]
  | _ =>
    refine ⟨?_, fun N V => ?_⟩
    · rw [mulTerms_of_not (by simp), chain, if_pos hs]
      rfl
    · obtain ⟨x, hx⟩ := den_scalar (V := V) h hs
      refine ⟨x, hx, Or.inl ⟨?_, ?_⟩⟩
      · rw [← hx]
        exact prods_single _
      · rw [mulTerms_of_not (by simp), nonScalar_cons_of_scalar hs]
        rfl

theorem mulShape_scalar_left {a b : Blk} (h : a.isScalar = true) : mulShape a b = some b.shape := by
  rw [mulShape, if_pos h]

theorem mulShape_scalar_right {a b : Blk} (ha : a.isScalar = false) (h : b.isScalar = true) :
    mulShape a b = some a.shape := by
  rw [mulShape, if_neg (by simp [ha]), if_pos h]

theorem mkMul_inv {a b c : Blk} (h : mkMul a b = some c) :
    ∃ (s : Dim × Dim) (f l : Blk) (cm : Bool), mulShape a b = some s ∧
      (nonScalar (a.mulTerms ++ b.mulTerms)).head? = some f ∧ (a.mulTerms ++ b.mulTerms).getLast? = some l ∧
      s.1 = f.rows ∧ s.2 = l.cols ∧ c = .mul false cm s.1 s.2 (a.mulTerms ++ b.mulTerms) := by
  unfold mkMul at h
  rcases hs : mulShape a b with _ | s
  · rw [hs] at h
    simp at h
  rcases hf : (nonScalar (a.mulTerms ++ b.mulTerms)).head? with _ | f
  · rw [hs] at h
    simp [hf] at h
  rcases hl : (a.mulTerms ++ b.mulTerms).getLast? with _ | l
  · rw [hs] at h
    simp only [Option.bind_eq_bind, Option.bind_some, hf, hl] at h
    simp at h
  rw [hs] at h
  simp only [Option.bind_eq_bind, Option.bind_some, hf, hl] at h
  split_ifs at h with hc
  exact ⟨s, f, l, _, rfl, rfl, rfl, hc.1, hc.2, (Option.some.inj h).symm⟩

theorem mkMul_good {a b c : Blk} (ha : good a) (hb : good b) (h : mkMul a b = some c) :
    good c ∧ mulShape a b = some c.shape ∧
      ∀ (N : ℕ) (V : Val N), den V c = norm c.shape (den V a * den V b) := by
  obtain ⟨s, f, l, cm, hs, hf, hl, h1, h2, rfl⟩ := mkMul_inv h
  have hne : nonScalar (a.mulTerms ++ b.mulTerms) ≠ [] := by
    intro he
    rw [he] at hf
    simp at hf
  have hg : goods (a.mulTerms ++ b.mulTerms) := goods_append.2 ⟨mulTerms_goods ha, mulTerms_goods hb⟩
  suffices hk : chain s.1 (a.mulTerms ++ b.mulTerms) s.2 ∧ ∀ (N : ℕ) (V : Val N),
      norm s (prods V (a.mulTerms ++ b.mulTerms)) = norm s (den V a * den V b) by
    refine ⟨?_, hs, fun N V => ?_⟩
    · rw [good]
      exact ⟨rfl, hg, hne, hk.1⟩
    · rw [den, show sgn false = 1 from rfl, one_smul]
      exact hk.2 N V
  cases hsa : a.isScalar
  · obtain ⟨a1, a2, a3⟩ := mulTerms_plain ha hsa
    cases hsb : b.isScalar
    · obtain ⟨b1, b2, b3⟩ := mulTerms_plain hb hsb
      rw [mulShape, if_neg (by simp [hsa]), if_neg (by simp [hsb])] at hs
      split_ifs at hs with hc
      obtain rfl := Option.some.inj hs
      refine ⟨chain_append.2 ⟨_, a1, ?_⟩, fun N V => ?_⟩
      · rw [hc]
        exact b1
      · rw [prods_append, a3, b3]
    · obtain ⟨b1, b2⟩ := mulTerms_scalar hb hsb
      rw [mulShape_scalar_right hsa hsb] at hs
      obtain rfl := Option.some.inj hs
      by_cases hn : nonScalar b.mulTerms = []
      · refine ⟨chain_append.2 ⟨_, a1, chain_of_scalars hn _⟩, fun N V => ?_⟩
        obtain ⟨x, hx, h3⟩ := b2 N V
        rcases h3 with ⟨h3, _⟩ | ⟨_, h3⟩
        · rw [prods_append, a3, h3, hx]
        · exact absurd hn h3
      · have hbl : b.mulTerms ≠ [] := by
          rintro he
          rw [he] at hn
          exact hn rfl
        rw [List.getLast?_append_of_ne_nil _ hbl] at hl
        have hone : a.cols = .num 1 := h2.trans (chain_last_one b1 hl)
        refine ⟨chain_append.2 ⟨_, a1, ?_⟩, fun N V => ?_⟩
        · show chain a.cols b.mulTerms a.cols
          rw [hone]
          exact b1
        · obtain ⟨x, hx, h3⟩ := b2 N V
          rcases h3 with ⟨_, h3⟩ | ⟨h3, _⟩
          · exact absurd h3 hn
          · have hp := (den_plain (V := V) ha hsa).2
            rw [hone] at hp
            rw [prods_append, a3, h3, hx, mul_smul_comm, mul_smul_comm, mul_one, hp]
  · obtain ⟨a1, a2⟩ := mulTerms_scalar ha hsa
    rw [mulShape_scalar_left hsa] at hs
    obtain rfl := Option.some.inj hs
    cases hsb : b.isScalar
    · obtain ⟨b1, b2, b3⟩ := mulTerms_plain hb hsb
      by_cases hn : nonScalar a.mulTerms = []
      · refine ⟨chain_append.2 ⟨_, chain_of_scalars hn _, b1⟩, fun N V => ?_⟩
        obtain ⟨x, hx, h3⟩ := a2 N V
        rcases h3 with ⟨h3, _⟩ | ⟨_, h3⟩
        · rw [prods_append, b3, h3, hx]
        · exact absurd hn h3
      · have hone : b.rows = .num 1 := by
          rw [nonScalar_append, List.head?_append_of_ne_nil _ hn] at hf
          exact h1.trans (chain_head a1 hf)
        refine ⟨chain_append.2 ⟨.num 1, ?_, ?_⟩, fun N V => ?_⟩
        · show chain b.rows _ _
          rw [hone]
          exact a1
        · rw [← hone]
          exact b1
        · obtain ⟨x, hx, h3⟩ := a2 N V
          rcases h3 with ⟨_, h3⟩ | ⟨h3, _⟩
          · exact absurd h3 hn
          · have hp := (den_plain (V := V) hb hsb).1
            rw [hone] at hp
            rw [prods_append, b3, h3, hx, smul_mul_assoc, smul_mul_assoc, one_mul, hp]
    · obtain ⟨b1, b2⟩ := mulTerms_scalar hb hsb
      have hss := isScalar_iff.1 hsb
      rw [hss]
      refine ⟨chain_append.2 ⟨_, a1, b1⟩, fun N V => ?_⟩
      obtain ⟨x, hx, hx'⟩ := a2 N V
      obtain ⟨y, hy, hy'⟩ := b2 N V
      rw [prods_append, hx, hy]
      have e1 : norm one1 ((x • 1 : M N) * (y • 1)) = (x * y) • 1 := by
        rw [smul_mul_assoc, one_mul, smul_smul, norm_one_smul]
      rw [e1]
      rcases hx' with ⟨hx', _⟩ | ⟨hx', _⟩ <;> rcases hy' with ⟨hy', _⟩ | ⟨hy', _⟩ <;> rw [hx', hy']
      · exact e1
      · rw [smul_mul_assoc, one_mul, smul_smul, norm_one_proj]
      · rw [smul_mul_assoc, mul_smul_comm, mul_one, smul_smul, norm_one_proj]
      · rw [smul_mul_assoc, mul_smul_comm, proj_idem, smul_smul, norm_one_proj]

theorem den_c0 (r c : Dim) : den V (c0 r c) = 0 := den_of_isZero rfl

theorem good_c0 (r c : Dim) : good (c0 r c) := by
  rw [c0, good]
  refine ⟨by simp, by simp, ?_⟩
  rintro ⟨n, hn⟩
  simp at hn

theorem good_cI (r : Dim) : good (cI r) := by
  rw [cI, good]
  refine ⟨by simp, by simp, ?_⟩
  rintro ⟨n, hn⟩
  simp at hn

/-- An identity is a square identity matrix. -/
theorem den_of_isIdent {a : Blk} (ha : good a) (h : a.isIdent = true) :
    a.rows = a.cols ∧ (a.isScalar = true → ∀ (N : ℕ) (V : Val N), den V a = 1) ∧
      (a.isScalar = false → ∀ (N : ℕ) (V : Val N), den V a = proj V a.rows) := by
  cases a with
  | const neg nm r c =>
    cases nm with
    | ident =>
      rw [good] at ha
      obtain ⟨h1, h2, _⟩ := ha
      obtain rfl := h2 rfl
      cases neg with
      | true => exact absurd rfl (h1 rfl).2
      | false =>
        refine ⟨rfl, fun hs N V => ?_, fun hs N V => ?_⟩
        · rw [den, denName, if_pos (show (r, r) = one1 from isScalar_iff.1 hs), show sgn false = 1 from rfl, one_smul]
        · rw [den, denName, if_neg (show (r, r) ≠ one1 from not_scalar.1 hs), show sgn false = 1 from rfl, one_smul]
          rfl
    | _ => simp [isIdent] at h
  | _ => simp [isIdent] at h

/-- Products of blocks that may be multiplied mean products. -/
theorem C53_mul_partial {a b c : Blk} (ha : good a) (hb : good b) (hc : Conform a b) (h : times a b = some c) :
    good c ∧ mulShape a b = some c.shape ∧
      ∀ (N : ℕ) (V : Val N), den V c = norm c.shape (den V a * den V b) := by
  have hsh : ¬ a.isScalar = true → ¬ b.isScalar = true → a.cols = b.rows :=
    fun h1 h2 => (hc.resolve_left h1).resolve_left h2
  unfold times at h
  by_cases h1 : (a.isZero || b.isZero) = true
  · rw [if_pos h1] at h
    obtain rfl := Option.some.inj h
    refine ⟨good_c0 _ _, ?_, fun N V => ?_⟩
    · unfold mulShape
      cases hsa : a.isScalar <;> cases hsb : b.isScalar
      · have := hsh (by simp [hsa]) (by simp [hsb])
        rw [if_neg (by simp), if_neg (by simp), if_pos this]
        rfl
      · rw [if_neg (by simp), if_pos rfl]
        rfl
      · rw [if_pos rfl]
        rfl
      · rw [if_pos rfl]
        have e1 := isScalar_iff.1 hsa
        have e2 := isScalar_iff.1 hsb
        simp [c0, shape, Blk.rows, Blk.cols, e1, e2]
    · rw [den_c0]
      rcases Bool.or_eq_true_iff.1 h1 with hz | hz
      · rw [den_of_isZero hz, zero_mul, norm_zero']
      · rw [den_of_isZero hz, mul_zero, norm_zero']
  rw [if_neg h1] at h
  split_ifs at h with h2 h3
  · obtain rfl := Option.some.inj h
    rw [Bool.and_eq_true, Bool.not_eq_true'] at h2
    obtain ⟨hi, hsb⟩ := h2
    obtain ⟨i1, i2, i3⟩ := den_of_isIdent ha hi
    cases hsa : a.isScalar
    · have hcr := hsh (by simp [hsa]) (by simp [hsb])
      refine ⟨hb, ?_, fun N V => ?_⟩
      · rw [mulShape, if_neg (by simp [hsa]), if_neg (by simp [hsb]), if_pos hcr, i1, hcr]
      · rw [i3 hsa, i1, hcr, (den_plain (V := V) hb hsb).1, norm_den hb]
    · refine ⟨hb, mulShape_scalar_left hsa, fun N V => ?_⟩
      rw [i2 hsa, one_mul, norm_den hb]
  · obtain rfl := Option.some.inj h
    rw [Bool.and_eq_true, Bool.not_eq_true'] at h3
    obtain ⟨hi, hsa⟩ := h3
    obtain ⟨i1, i2, i3⟩ := den_of_isIdent hb hi
    cases hsb : b.isScalar
    · have hcr := hsh (by simp [hsa]) (by simp [hsb])
      refine ⟨ha, ?_, fun N V => ?_⟩
      · rw [mulShape, if_neg (by simp [hsa]), if_neg (by simp [hsb]), if_pos hcr, ← i1, ← hcr]
      · rw [i3 hsb, ← hcr, (den_plain (V := V) ha hsa).2, norm_den ha]
    · refine ⟨ha, mulShape_scalar_right hsa hsb, fun N V => ?_⟩
      rw [i2 hsb, mul_one, norm_den ha]
  · exact mkMul_good ha hb h

/-! ### Transposes and differences -/

/-- Transposes mean transposes. -/
theorem C53_tr_partial {a : Blk} (ha : good a) :
    good a.transpose ∧ a.transpose.shape = a.shape.swap ∧
      ∀ (N : ℕ) (V : Val N), den V a.transpose = (den V a).transpose := by
  unfold Blk.transpose
  split_ifs with h1 h2
  · exact ⟨good_c0 _ _, rfl, fun N V => by rw [den_c0, den_of_isZero h1, Matrix.transpose_zero]⟩
  · rcases Bool.or_eq_true_iff.1 h2 with hi | hs
    · obtain ⟨i1, i2, i3⟩ := den_of_isIdent ha hi
      refine ⟨ha, ?_, fun N V => ?_⟩
      · exact Prod.ext i1 i1.symm
      · cases hs : a.isScalar
        · rw [i3 hs, proj_tr]
        · rw [i2 hs, Matrix.transpose_one]
    · refine ⟨ha, ?_, fun N V => ?_⟩
      · rw [isScalar_iff.1 hs]
        rfl
      · obtain ⟨x, hx⟩ := den_scalar (V := V) ha hs
        rw [hx, Matrix.transpose_smul, Matrix.transpose_one]
  · rw [Bool.or_eq_true, not_or] at h2
    refine ⟨?_, rfl, fun N V => by rw [den]⟩
    rw [good]
    exact ⟨rfl, ha, by simpa using h2.2⟩

/-- Blocks for which the sign is printed. -/
def Signed : Blk → Prop
  | .const .. => True
  | .mul .. => True
  | _ => False

/-- Differences mean differences if a named block or a product is subtracted, and can be used on if a named block is. -/
theorem C53_sub_partial {a b c : Blk} (ha : good a) (hb : good b) (hs : Signed b) (hp : ∀ nm r c, b ≠ .const true nm r c)
    (h : minus a b = some c) :
    c.shape = a.shape ∧ (∀ (N : ℕ) (V : Val N), den V c = den V a - den V b) ∧
      (∀ k r s, b = .const false (.sym k) r s → good c) := by
  have hsh : b.setNeg.shape = b.shape := by cases b <;> rfl
  have hd : ∀ (N : ℕ) (V : Val N), den V b.setNeg = - den V b := by
    intro N V
    cases b with
    | const neg nm r c =>
      cases neg with
      | true => exact absurd rfl (hp nm r c)
      | false => simp [setNeg, den, sgn]
    | mul neg cm r c ts =>
      rw [good] at hb
      obtain ⟨rfl, _⟩ := hb
      simp [setNeg, den, sgn]
    | tr _ _ => exact hs.elim
    | add _ _ _ _ => exact hs.elim
  have hz : b.setNeg.isZero = b.isZero := by
    cases b with
    | const neg nm r c => cases nm <;> rfl
    | _ => rfl
  have hat : b.setNeg.addTerms = [b.setNeg] := by
    cases b with
    | const neg nm r c => rfl
    | mul neg cm r c ts => rfl
    | tr _ _ => rfl
    | add _ _ _ _ => exact hs.elim
  have hgs : ∀ k r s, b = .const false (.sym k) r s → good b.setNeg := by
    rintro k r s rfl
    rw [setNeg, good]
    refine ⟨by simp, by simp, ?_⟩
    rintro ⟨n, hn⟩
    simp at hn
  unfold minus plus at h
  rw [hsh] at h
  split_ifs at h with h1 h2 h3
  · push Not at h1
    obtain rfl := Option.some.inj h
    exact ⟨hsh.trans h1.symm, fun N V => by rw [hd, den_of_isZero h2, zero_sub], hgs⟩
  · push Not at h1
    obtain rfl := Option.some.inj h
    rw [hz] at h3
    exact ⟨rfl, fun N V => by rw [den_of_isZero h3, sub_zero], fun _ _ _ _ => ha⟩
  · push Not at h1
    unfold mkAdd at h
    rw [if_pos (h1.trans hsh.symm)] at h
    obtain rfl := Option.some.inj h
    obtain ⟨a1, a2, a3, a4⟩ := addTerms_good ha
    refine ⟨rfl, fun N V => ?_, fun k r s hk => ?_⟩
    · rw [den, show sgn false = 1 from rfl, sums_one, tot_append, a4, hat, tot, tot, hd, add_zero, sub_eq_add_neg]
    · rw [good]
      refine ⟨rfl, goods_append.2 ⟨a1, ?_⟩, by simp [a2], fun t ht => ?_⟩
      · rw [hat]
        exact ⟨hgs k r s hk, trivial⟩
      · rcases List.mem_append.1 ht with ht | ht
        · exact a3 t ht
        · rw [hat, List.mem_singleton] at ht
          rw [ht, hsh]
          exact h1.symm

end Verif.Props.Symb
