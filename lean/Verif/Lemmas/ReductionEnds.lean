import Verif.Lemmas.Reduction
import Mathlib.LinearAlgebra.Matrix.Block
import Mathlib.Data.Fintype.BigOperators
import Mathlib.Order.Interval.Finset.Nat
import Mathlib.Data.Int.Interval
import Mathlib.Data.Set.Finite.Lattice
/-! # The reduction ends -/
namespace Verif.Lambda
open Finset

variable {K : Type} [Field K] [LinearOrder K] [IsStrictOrderedRing K] [FloorRing K]

/-- `zᵀ Q z` of an integer vector. -/
def quadZ (N : Nat) (Q : Mat K) (z : Nat → Int) : K :=
  ∑ a ∈ range N, ∑ b ∈ range N, (z a : K) * Q a b * (z b : K)

theorem quadZ_gram (N : Nat) (L : Mat K) (D : Vec K) (Q : Mat K) (z : Nat → Int)
    (h : ∀ a < N, ∀ b < N, gram N L D a b = Q a b) :
    quadZ N Q z = ∑ r ∈ range N, D r * (∑ a ∈ range N, L r a * (z a : K)) ^ 2 := by
  unfold quadZ
  have : ∀ a ∈ range N, ∀ b ∈ range N, (z a : K) * Q a b * (z b : K) =
      ∑ r ∈ range N, D r * (L r a * z a) * (L r b * z b) := by
    intro a ha b hb
    rw [← h a (mem_range.1 ha) b (mem_range.1 hb), gram, mul_sum, sum_mul]
    apply sum_congr rfl; intro r _; ring
  rw [sum_congr rfl fun a ha => sum_congr rfl (this a ha)]
  rw [sum_congr rfl fun a (_ : a ∈ range N) => sum_comm, sum_comm]
  apply sum_congr rfl; intro r _
  rw [pow_two, sum_mul_sum, mul_sum]
  apply sum_congr rfl; intro a _
  rw [mul_sum]
  apply sum_congr rfl; intro b _; ring

/-- Integer vectors of bounded length have bounded entries. -/
theorem bounded_entry {N : Nat} {L : Mat K} {D : Vec K} {Q : Mat K} (hd : ∀ i < N, 0 < D i)
    (h1 : ∀ i < N, L i i = 1) (hu : ∀ r c, r < c → L r c = 0)
    (h : ∀ a < N, ∀ b < N, gram N L D a b = Q a b) (R : K) :
    ∀ r, r < N → ∃ B : K, ∀ z : Nat → Int, quadZ N Q z ≤ R → |(z r : K)| ≤ B := by
  intro r
  induction r using Nat.strong_induction_on with
  | _ r ih =>
    intro hr
    have : ∀ a, ∃ B : K, a < r → ∀ z : Nat → Int, quadZ N Q z ≤ R → |(z a : K)| ≤ B := by
      intro a
      by_cases ha : a < r
      · obtain ⟨B, hB⟩ := ih a ha (by omega)
        exact ⟨B, fun _ => hB⟩
      · exact ⟨0, fun h => absurd h ha⟩
    choose B hB using this
    refine ⟨1 + R / D r + ∑ a ∈ range r, |L r a| * B a, fun z hz => ?_⟩
    have hDr := hd r hr
    have hsq : D r * (∑ a ∈ range N, L r a * (z a : K)) ^ 2 ≤ R := by
      refine le_trans ?_ hz
      rw [quadZ_gram N L D Q z h]
      exact single_le_sum (f := fun r => D r * (∑ a ∈ range N, L r a * (z a : K)) ^ 2)
        (fun i hi => mul_nonneg (hd i (mem_range.1 hi)).le (sq_nonneg _)) (mem_range.2 hr)
    have hrow : ∑ a ∈ range N, L r a * (z a : K) = z r + ∑ a ∈ range r, L r a * (z a : K) := by
      have hsplit : range N = range (r + 1) ∪ Ico (r + 1) N := by
        ext i; simp only [mem_union, mem_range, mem_Ico]; omega
      rw [hsplit, sum_union (by
        rw [disjoint_left]; intro i hi; rw [mem_range] at hi; simp only [mem_Ico]; omega),
        sum_range_succ, h1 r hr]
      have hz0 : ∑ a ∈ Ico (r + 1) N, L r a * (z a : K) = 0 := by
        apply sum_eq_zero; intro a ha
        rw [hu r a (by have := mem_Ico.1 ha; omega)]; ring
      rw [hz0]; ring
    set u := ∑ a ∈ range N, L r a * (z a : K) with hu'
    have hu1 : |u| ≤ 1 + R / D r := by
      have h2 : u ^ 2 ≤ R / D r := by rw [le_div_iff₀ hDr]; linarith
      by_contra hcon
      push Not at hcon
      have h3 : |u| ^ 2 = u ^ 2 := sq_abs u
      have h4 : 0 ≤ u ^ 2 := sq_nonneg u
      nlinarith
    have hzr : (z r : K) = u - ∑ a ∈ range r, L r a * (z a : K) := by rw [hrow]; ring
    rw [hzr]
    refine (abs_sub _ _).trans (add_le_add hu1 ?_)
    refine (abs_sum_le_sum_abs _ _).trans (sum_le_sum fun a ha => ?_)
    rw [abs_mul]
    exact mul_le_mul_of_nonneg_left (hB a (mem_range.1 ha) z hz) (abs_nonneg _)

/-- Extension of a finite integer vector. -/
def ext0 {N : Nat} (z : Fin N → Int) : Nat → Int := fun i => if h : i < N then z ⟨i, h⟩ else 0

theorem finite_short {N : Nat} {L : Mat K} {D : Vec K} {Q : Mat K} (hd : ∀ i < N, 0 < D i)
    (h1 : ∀ i < N, L i i = 1) (hu : ∀ r c, r < c → L r c = 0)
    (h : ∀ a < N, ∀ b < N, gram N L D a b = Q a b) (R : K) :
    Set.Finite {z : Fin N → Int | quadZ N Q (ext0 z) ≤ R} := by
  have hb := bounded_entry hd h1 hu h R
  have : ∀ r : Fin N, ∃ b : Int, ∀ z : Nat → Int, quadZ N Q z ≤ R → z r ∈ Set.Icc (-b) b := by
    intro r
    obtain ⟨B, hB⟩ := hb r r.2
    refine ⟨⌊B⌋, fun z hz => ?_⟩
    have h2 := abs_le.1 (hB z hz)
    refine ⟨?_, Int.le_floor.2 h2.2⟩
    have : -z r ≤ ⌊B⌋ := Int.le_floor.2 (by push_cast; linarith)
    omega
  choose b hbb using this
  refine Set.Finite.subset (Set.Finite.pi' fun r => Set.finite_Icc (-b r) (b r)) ?_
  intro z hz r
  have := hbb r (ext0 z) hz
  unfold ext0 at this
  simpa using this

/-- The product of the pivots from `j` on. -/
def tailProd (N : Nat) (D : Vec K) (j : Nat) : K := ∏ i ∈ Ico j N, D i

/-- It is a determinant of products of columns. -/
theorem tailProd_det {N : Nat} {L : Mat K} {D : Vec K} (h1 : ∀ i < N, L i i = 1)
    (hu : ∀ r c, r < c → L r c = 0) (j : Nat) (hj : j ≤ N) :
    (Matrix.of fun u v : Fin (N - j) => gram N L D (j + u) (j + v)).det = tailProd N D j := by
  set A : Matrix (Fin (N - j)) (Fin (N - j)) K := Matrix.of fun r c => L (j + r) (j + c) with hA
  have hprod : (Matrix.of fun u v : Fin (N - j) => gram N L D (j + u) (j + v)) =
      A.transpose * Matrix.diagonal (fun r : Fin (N - j) => D (j + r)) * A := by
    ext u v
    rw [Matrix.mul_apply]
    simp only [Matrix.mul_diagonal, Matrix.of_apply, Matrix.transpose_apply, hA]
    unfold gram
    have hsplit : range N = range j ∪ Ico j N := by
      ext i; simp only [mem_union, mem_range, mem_Ico]; omega
    rw [hsplit, sum_union (by
      rw [disjoint_left]; intro i hi; rw [mem_range] at hi; simp only [mem_Ico]; omega)]
    have hz0 : ∑ r ∈ range j, L r (j + u) * D r * L r (j + v) = 0 := by
      apply sum_eq_zero; intro r hr
      rw [hu r (j + u) (by have := mem_range.1 hr; omega)]; ring
    rw [hz0, zero_add, sum_Ico_eq_sum_range]
    exact Finset.sum_range (fun k => L (j + k) (j + u) * D (j + k) * L (j + k) (j + v))
  have hdetA : A.det = 1 := by
    rw [Matrix.det_of_isLowerTriangular]
    · apply prod_eq_one
      intro r _
      simp only [hA, Matrix.of_apply]
      exact h1 _ (by omega)
    · intro r c hrc
      simp only [hA, Matrix.of_apply]
      have : (r : Nat) < c := hrc
      exact hu _ _ (by omega)
  rw [hprod, Matrix.det_mul, Matrix.det_mul, Matrix.det_transpose, hdetA, Matrix.det_diagonal, one_mul, mul_one]
  unfold tailProd
  rw [prod_Ico_eq_prod_range]
  exact (Finset.prod_range (fun k => D (j + k))).symm

/-- The determinant as a function of integer columns. -/
noncomputable def detCols (N m : Nat) (Q : Mat K) (w : Fin m → Fin N → Int) : K :=
  (Matrix.of fun u v : Fin m => ∑ p ∈ range N, ∑ q ∈ range N,
    (ext0 (w u) p : K) * Q p q * (ext0 (w v) q : K)).det

theorem ext0_apply {N : Nat} (z : Fin N → Int) (i : Nat) (h : i < N) : ext0 z i = z ⟨i, h⟩ := by
  unfold ext0; rw [dif_pos h]

/-- After a swap at `p` the product of the pivots above `p` is one of finitely many numbers. -/
theorem tailProd_finite {N : Nat} {L0 : Mat K} {D0 : Vec K} {Q : Mat K} {a0 : Vec K} (hd : ∀ i < N, 0 < D0 i)
    (h1 : ∀ i < N, L0 i i = 1) (hu : ∀ r c, r < c → L0 r c = 0)
    (h : ∀ a < N, ∀ b < N, gram N L0 D0 a b = Q a b) (M : K) (p : Nat) :
    ∃ F : Finset K, ∀ s : Red K, RInv N Q a0 s → (∀ i < N, s.D i ≤ M) → Reduced N (p + 1) s.L → p + 1 ≤ N →
      tailProd N s.D (p + 1) ∈ F := by
  classical
  set V : Set (Fin N → Int) := {z | quadZ N Q (ext0 z) ≤ (N : K) * M} with hV
  have hVf : V.Finite := finite_short hd h1 hu h _
  have hT : Set.Finite {w : Fin (N - (p + 1)) → Fin N → Int | ∀ u, w u ∈ V} :=
    Set.Finite.pi' fun _ => hVf
  refine ⟨(hT.image (detCols N (N - (p + 1)) Q)).toFinset, fun s hs hM hred hp => ?_⟩
  rw [Set.Finite.mem_toFinset]
  obtain ⟨W, -, hW⟩ := hs.unim
  have hW' : ∀ (u : Fin (N - (p + 1))) (q : Nat) (_ : q < N),
      (ext0 (fun r : Fin N => W r ⟨p + 1 + u, by omega⟩) q : K) = s.Z q (p + 1 + u) := by
    intro u q hq
    rw [ext0_apply _ q hq]
    exact (hW ⟨q, hq⟩ ⟨p + 1 + u, by omega⟩).symm
  refine ⟨fun u r => W r ⟨p + 1 + u, by omega⟩, fun u => ?_, ?_⟩
  · -- the columns are short
    show quadZ N Q _ ≤ _
    have hq : quadZ N Q (ext0 fun r => W r ⟨p + 1 + u, by omega⟩) = congr2 N s.Z Q (p + 1 + u) (p + 1 + u) := by
      unfold quadZ congr2
      apply sum_congr rfl; intro a ha
      apply sum_congr rfl; intro b hb
      rw [hW' u a (mem_range.1 ha), hW' u b (mem_range.1 hb)]
    rw [hq, ← hs.fact _ (by omega) _ (by omega)]
    unfold gram
    have : (N : K) * M = ∑ _r ∈ range N, M := by simp
    rw [this]
    apply sum_le_sum
    intro r hr
    have hr := mem_range.1 hr
    have hDr := hs.dpos r hr
    have hMr := hM r hr
    have hl : |s.L r (p + 1 + u)| ≤ 1 := by
      rcases lt_trichotomy r (p + 1 + u) with hlt | heq | hgt
      · rw [hs.upper _ _ hlt]; simp
      · rw [← heq, hs.unit r hr]; simp
      · have := hred (p + 1 + u) (by omega) r hr hgt
        linarith
    have h2 : s.L r (p + 1 + u) * s.L r (p + 1 + u) ≤ 1 := by
      rw [← abs_mul_abs_self]
      have := abs_nonneg (s.L r (p + 1 + u))
      nlinarith
    nlinarith
  · rw [← tailProd_det hs.unit hs.upper (p + 1) hp]
    unfold detCols
    congr 1
    ext u v
    simp only [Matrix.of_apply]
    rw [hs.fact _ (by omega) _ (by omega)]
    unfold congr2
    apply sum_congr rfl; intro a ha
    apply sum_congr rfl; intro b hb
    rw [hW' u a (mem_range.1 ha), hW' v b (mem_range.1 hb)]

/-- The effect of a swap on the products of pivots. -/
theorem permute_tailProd {N k : Nat} {delta : K} {s : Red K} (hk : k + 1 < N) (hd : 0 < delta) (j : Nat)
    (hj : j ≠ k + 1) : tailProd N (permute k delta s).D j = tailProd N s.D j := by
  have hD : ∀ r, (permute k delta s).D r =
      if r = k + 1 then delta else if r = k then s.D k / delta * s.D (k + 1) else s.D r := by
    intro r; rfl
  unfold tailProd
  rcases Nat.lt_or_ge (k + 1) j with hlt | hge
  · apply prod_congr rfl
    intro i hi
    have := mem_Ico.1 hi
    rw [hD, if_neg (by omega), if_neg (by omega)]
  · have hm1 : k ∈ Ico j N := mem_Ico.2 ⟨by omega, by omega⟩
    have hm2 : k + 1 ∈ (Ico j N).erase k := mem_erase.2 ⟨by omega, mem_Ico.2 ⟨by omega, hk⟩⟩
    rw [← mul_prod_erase _ _ hm1, ← mul_prod_erase _ _ hm1, ← mul_prod_erase _ _ hm2, ← mul_prod_erase _ _ hm2,
      ← mul_assoc, ← mul_assoc]
    congr 1
    · rw [hD, hD, if_neg (by omega), if_pos rfl, if_pos rfl]; field_simp
    · apply prod_congr rfl
      intro i hi
      have h1 := mem_erase.1 hi
      have h2 := mem_erase.1 h1.2
      rw [hD, if_neg h1.1, if_neg h2.1]

theorem permute_tailProd_lt {N k : Nat} {delta : K} {s : Red K} (hk : k + 1 < N) (hpos : ∀ i < N, 0 < s.D i)
    (hlt : delta < s.D (k + 1)) : tailProd N (permute k delta s).D (k + 1) < tailProd N s.D (k + 1) := by
  have hD : ∀ r, (permute k delta s).D r =
      if r = k + 1 then delta else if r = k then s.D k / delta * s.D (k + 1) else s.D r := by
    intro r; rfl
  unfold tailProd
  rw [prod_eq_prod_Ico_succ_bot (by omega : k + 1 < N), prod_eq_prod_Ico_succ_bot (by omega : k + 1 < N)]
  have : ∏ i ∈ Ico (k + 1 + 1) N, (permute k delta s).D i = ∏ i ∈ Ico (k + 1 + 1) N, s.D i := by
    apply prod_congr rfl
    intro i hi
    have := mem_Ico.1 hi
    rw [hD, if_neg (by omega), if_neg (by omega)]
  rw [this, hD, if_pos rfl]
  exact mul_lt_mul_of_pos_right hlt (prod_pos fun i hi => hpos i (mem_Ico.1 hi).2)

/-- One sweep: the pivots stay bounded; without a swap they do not change, with one at `p` the products change
only at `p + 1`, where the product decreases. -/
theorem sweep_pivots {N : Nat} {Q : Mat K} {a0 : Vec K} (k1 : Nat) (M : K) : ∀ (k : Nat) (s : Red K), k + 1 ≤ N →
    RInv N Q a0 s → (∀ i < N, s.D i ≤ M) → ∀ p, (sweep N k1 k s).1 = some p →
    p + 1 < N ∧ (∀ i < N, (sweep N k1 k s).2.D i ≤ M) ∧
    (∀ j, j ≠ p + 1 → tailProd N (sweep N k1 k s).2.D j = tailProd N s.D j) ∧
    tailProd N (sweep N k1 k s).2.D (p + 1) < tailProd N s.D (p + 1) := by
  intro k
  induction k with
  | zero => intro s _ _ _ p hp; simp [sweep] at hp
  | succ k ih =>
    intro s hk h hM p
    unfold sweep
    dsimp only
    set s' := if k ≤ k1 then gaussColumn N k s else s with hs'
    have hs : RInv N Q a0 s' ∧ s'.D = s.D := by
      rw [hs']
      split_ifs
      · obtain ⟨g1, -, -⟩ := gaussColumn_spec (k := k) h (N - (k + 1)) (by omega)
        exact ⟨g1, gaussColumn_D N k s⟩
      · exact ⟨h, rfl⟩
    obtain ⟨i1, i2⟩ := hs
    have hDk := i1.dpos k (by omega)
    have hDk1 := i1.dpos (k + 1) (by omega)
    have hle : s'.D k ≤ s'.D k + s'.L (k + 1) k * s'.L (k + 1) k * s'.D (k + 1) := by
      have := mul_nonneg (mul_self_nonneg (s'.L (k + 1) k)) hDk1.le
      linarith
    set delta := s'.D k + s'.L (k + 1) k * s'.L (k + 1) k * s'.D (k + 1) with hdelta
    split_ifs with hlt
    · intro hp
      have hkp : k = p := Option.some.inj hp
      subst hkp
      have hd : 0 < delta := by linarith
      refine ⟨by omega, fun i hi => ?_, fun j hj => ?_, ?_⟩
      · have hD : (permute k delta s').D i =
          if i = k + 1 then delta else if i = k then s'.D k / delta * s'.D (k + 1) else s'.D i := rfl
        show (permute k delta s').D i ≤ M
        rw [hD]
        have hM1 := hM (k + 1) (by omega)
        rw [← i2] at hM1
        split_ifs
        · linarith
        · have : s'.D k / delta ≤ 1 := by rw [div_le_one hd]; exact hle
          nlinarith
        · rw [i2]; exact hM i hi
      · show tailProd N (permute k delta s').D j = _
        rw [permute_tailProd (by omega) hd j hj, i2]
      · show tailProd N (permute k delta s').D (k + 1) < _
        have := permute_tailProd_lt (N := N) (by omega) i1.dpos hlt
        rw [i2] at this; exact this
    · intro hp
      have := ih s' (by omega) i1 (by rw [i2]; exact hM) p hp
      rw [i2] at this; exact this

/-- Number of values below the current product, over all levels. -/
noncomputable def potential (N : Nat) (F : Nat → Finset K) (D : Vec K) : Nat :=
  ∑ p ∈ range N, ((F p).filter fun v => v < tailProd N D (p + 1)).card

theorem reduceLoop_ends {N : Nat} {Q : Mat K} {a0 : Vec K} (M : K) (F : Nat → Finset K) (hN : 1 ≤ N)
    (hF : ∀ p (s : Red K), RInv N Q a0 s → (∀ i < N, s.D i ≤ M) → Reduced N (p + 1) s.L → p + 1 ≤ N →
      tailProd N s.D (p + 1) ∈ F p) :
    ∀ (fuel k1 : Nat) (s : Red K), RInv N Q a0 s → (∀ c, k1 < c → ∀ r < N, c < r → |s.L r c| ≤ 1 / 2) →
    (∀ i < N, s.D i ≤ M) → potential N F s.D < fuel → (reduceLoop N fuel k1 s).isSome := by
  intro fuel
  induction fuel with
  | zero => intro k1 s _ _ _ h; omega
  | succ fuel ih =>
    intro k1 s hs hk1 hM hf
    have hsw := sweep_spec k1 (N - 1) s (by omega) hs hk1
      (fun c hc r hr hcr => by omega) (fun j h1 h2 => by omega)
    have hpv := sweep_pivots k1 M (N - 1) s (by omega) hs hM
    unfold reduceLoop
    generalize hp : sweep N k1 (N - 1) s = q at hsw hpv ⊢
    obtain ⟨o, s'⟩ := q
    cases o with
    | none => rfl
    | some p =>
      obtain ⟨h1, -, h3⟩ := hsw
      obtain ⟨p1, p2, p3, p4⟩ := hpv p rfl
      dsimp only at p1 p2 p3 p4 h1 h3
      refine ih p s' h1 (fun c hc r hr hcr => h3 p rfl c hc r hr hcr) p2 ?_
      have hmem := hF p s' h1 p2 (h3 p rfl) (by omega)
      have : potential N F s'.D < potential N F s.D := by
        unfold potential
        apply sum_lt_sum
        · intro j _
          apply card_le_card
          intro v hv
          rw [mem_filter] at hv ⊢
          refine ⟨hv.1, ?_⟩
          by_cases e : j = p
          · subst e; exact hv.2.trans p4
          · rw [← p3 (j + 1) (by omega)]; exact hv.2
        · refine ⟨p, mem_range.2 (by omega), card_lt_card ?_⟩
          rw [ssubset_iff_of_subset]
          · exact ⟨tailProd N s'.D (p + 1), mem_filter.2 ⟨hmem, p4⟩, fun hc => lt_irrefl _ (mem_filter.1 hc).2⟩
          · intro v hv
            rw [mem_filter] at hv ⊢
            exact ⟨hv.1, hv.2.trans p4⟩
      omega

end Verif.Lambda
