import Verif.Spec.Lambda
import Verif.Lemmas.SearchLoop
import Verif.Lemmas.ReductionEnds
import Mathlib.LinearAlgebra.Matrix.ToLin
/-! # From the solver's arrays to matrices -/
namespace Verif.Lambda
open Finset Matrix LambdaSpec

section Generic
variable {K : Type} [Field K] [LinearOrder K] [IsStrictOrderedRing K] [FloorRing K]

def toVec (n : Nat) (v : Vec K) : Fin n → K := fun i => v i

/-- `Lᵀ diag(D) L`. -/
def ltdlMat (n : Nat) (L : Mat K) (D : Vec K) : Matrix (Fin n) (Fin n) K :=
  (toMat n L)ᵀ * diagonal (toVec n D) * toMat n L

theorem ltdlMat_apply (n : Nat) (L : Mat K) (D : Vec K) (a b : Fin n) : ltdlMat n L D a b = gram n L D a b := by
  unfold ltdlMat gram
  rw [Matrix.mul_apply]
  simp only [Matrix.mul_diagonal, Matrix.transpose_apply, toMat, Matrix.of_apply, toVec]
  exact (Finset.sum_range (fun r => L r a * D r * L r b)).symm

theorem congr2_apply (n : Nat) (Z Q : Mat K) (a b : Fin n) :
    ((toMat n Z)ᵀ * toMat n Q * toMat n Z) a b = congr2 n Z Q a b := by
  unfold congr2
  rw [Matrix.mul_apply, Finset.sum_comm, Finset.sum_range]
  apply sum_congr rfl
  intro q _
  rw [Matrix.mul_apply, sum_mul, Finset.sum_range]
  rfl

theorem det_unitLower {n : Nat} {L : Mat K} (h1 : ∀ i < n, L i i = 1) (hu : ∀ r c, r < c → L r c = 0) :
    (toMat n L).det = 1 := by
  rw [Matrix.det_of_isLowerTriangular]
  · apply prod_eq_one
    intro r _
    exact h1 r r.2
  · intro r c hrc
    have : (r : Nat) < c := hrc
    exact hu _ _ this

/-- `Lᵀ w = z - a` for the residuals `w` of the conditional estimates. -/
theorem cond_solves {n : Nat} {a : Vec K} {L : Mat K} (h1 : ∀ i < n, L i i = 1) (hu : ∀ r c, r < c → L r c = 0)
    (z : Nat → Int) : (toMat n L)ᵀ *ᵥ (fun j : Fin n => (z j : K) - cond n a L z j) = fun j : Fin n => (z j : K) - a j := by
  ext j
  have e : ((toMat n L)ᵀ *ᵥ (fun j : Fin n => (z j : K) - cond n a L z j)) j =
      ∑ i ∈ range n, L i j * ((z i : K) - cond n a L z i) := by
    rw [Finset.sum_range]; rfl
  rw [e]
  have hj := j.2
  have hsplit : range n = range j ∪ Ico (j : Nat) n := by
    ext i; simp only [mem_union, mem_range, mem_Ico]; omega
  rw [hsplit, sum_union (by
    rw [disjoint_left]; intro i hi; rw [mem_range] at hi; simp only [mem_Ico]; omega),
    sum_eq_sum_Ico_succ_bot hj]
  have hz0 : ∑ i ∈ range (j : Nat), L i j * ((z i : K) - cond n a L z i) = 0 := by
    apply sum_eq_zero; intro i hi
    rw [hu i j (mem_range.1 hi)]; ring
  rw [hz0, h1 j hj]
  have hc := cond_eq n a L z j
  have hs : ∑ i ∈ Ico ((j : Nat) + 1) n, L i j * ((z i : K) - cond n a L z i) =
      ∑ i ∈ Ico ((j : Nat) + 1) n, ((z i : K) - cond n a L z i) * L i j :=
    sum_congr rfl fun i _ => mul_comm _ _
  rw [hs]
  generalize ∑ i ∈ Ico ((j : Nat) + 1) n, ((z i : K) - cond n a L z i) * L i j = S at *
  rw [hc]; ring

/-- The distance the search works with is the distance in the metric of `Lᵀ D L`. -/
theorem fdist_eq {n : Nat} {a : Vec K} {L : Mat K} {D : Vec K} (hd : ∀ i < n, 0 < D i) (h1 : ∀ i < n, L i i = 1)
    (hu : ∀ r c, r < c → L r c = 0) (z : Nat → Int) :
    fdist n a L D z = sqDist (ltdlMat n L D) (fun i : Fin n => (z i : K) - a i) := by
  have hdet := det_unitLower h1 hu
  have hLu : IsUnit (toMat n L).det := by rw [hdet]; exact isUnit_one
  have hDu : ∀ i : Fin n, toVec n D i ≠ 0 := fun i => (hd i i.2).ne'
  set w : Fin n → K := fun j => (z j : K) - cond n a L z j with hw
  have hv := cond_solves (a := a) h1 hu z
  rw [← hw] at hv
  set u : Fin n → K := (toMat n L)⁻¹ *ᵥ (fun i => w i / toVec n D i) with hu'
  have hLuv : toMat n L *ᵥ u = fun i => w i / toVec n D i := by
    rw [hu', Matrix.mulVec_mulVec, Matrix.mul_nonsing_inv _ hLu, Matrix.one_mulVec]
  have hDw : diagonal (toVec n D) *ᵥ (fun i => w i / toVec n D i) = w := by
    ext i; rw [Matrix.mulVec_diagonal]; field_simp [hDu i]
  have hQu : ltdlMat n L D *ᵥ u = fun i : Fin n => (z i : K) - a i := by
    unfold ltdlMat
    rw [← Matrix.mulVec_mulVec, hLuv, ← Matrix.mulVec_mulVec, hDw, hv]
  have hQdet : IsUnit (ltdlMat n L D).det := by
    unfold ltdlMat
    rw [Matrix.det_mul, Matrix.det_mul, Matrix.det_transpose, hdet, Matrix.det_diagonal, one_mul, mul_one]
    exact IsUnit.mk0 _ (prod_ne_zero_iff.2 fun i _ => hDu i)
  have hinv : (ltdlMat n L D)⁻¹ *ᵥ (fun i : Fin n => (z i : K) - a i) = u := by
    rw [← hQu, Matrix.mulVec_mulVec, Matrix.nonsing_inv_mul _ hQdet, Matrix.one_mulVec]
  unfold sqDist
  rw [hinv, ← hv, Matrix.mulVec_transpose, ← Matrix.dotProduct_mulVec, hLuv]
  unfold fdist dotProduct
  rw [Finset.sum_range]
  apply sum_congr rfl
  intro i _
  show _ = w i * (w i / D i)
  rw [hw]; ring

theorem ext0_val {n : Nat} (z : Fin n → Int) (i : Fin n) : ext0 z i = z i := by
  rw [ext0_apply z i i.2]

/-- What the search returns. -/
theorem search_best {n m : Nat} {a : Vec K} {L : Mat K} {D : Vec K} (hn : 0 < n) (hm : 0 < m)
    (hd : ∀ i < n, 0 < D i) (h1 : ∀ i < n, L i i = 1) (hu : ∀ r c, r < c → L r c = 0) :
    ∃ fuel0, ∀ fuel, fuel0 ≤ fuel → ∃ res, search n m L D a fuel = some res ∧ res.length = m ∧
      ((∃ S : Finset (Fin n → Int), m ≤ S.card ∧ ∀ z ∈ S, distZ (ltdlMat n L D) (toVec n a) z < 10 ^ 18) →
        ∃ zs : List (Fin n → Int), Best (ltdlMat n L D) (toVec n a) zs ∧
          res.map (fun p => (p.1, toVec n p.2)) =
            zs.map fun z => (distZ (ltdlMat n L D) (toVec n a) z, fun i => (z i : K))) := by
  obtain ⟨f0, hf0⟩ := search_total (L := L) (a := a) hn hm hd
  refine ⟨f0, fun fuel hf => ?_⟩
  obtain ⟨out, full, ho, hc⟩ := hf0 fuel hf
  refine ⟨_, by unfold search; rw [ho]; rfl, by simp, fun ⟨S, hS, hSd⟩ => ?_⟩
  have hdist : ∀ z : Nat → Int, fdist n a L D z = distZ (ltdlMat n L D) (toVec n a) fun i => z i := by
    intro z; rw [fdist_eq hd h1 hu]; rfl
  have hdist' : ∀ z : Fin n → Int, fdist n a L D (ext0 z) = distZ (ltdlMat n L D) (toVec n a) z := by
    intro z; rw [hdist]; congr 1; ext i; exact ext0_val z i
  -- enough near points fill the table
  have hfull : full = true := by
    cases full with
    | true => rfl
    | false =>
      exfalso
      obtain ⟨f1, f2, -⟩ := hc.filling rfl
      have hcov := hc.cover
      simp only [Bool.false_eq_true, if_false] at hcov
      have hin : ∀ z ∈ S, ∃ c, c < out.count ∧ ∀ r < n, out.cands c r = (ext0 z r : K) := by
        intro z hz
        rcases hcov (ext0 z) trivial with h | h
        · exact h
        · rw [f1, hdist'] at h
          exact absurd (hSd z hz) (not_lt.2 h)
      classical
      choose! g hg1 hg2 using hin
      have : ∃ x ∈ S, ∃ y ∈ S, x ≠ y ∧ g x = g y := by
        apply Finset.exists_ne_map_eq_of_card_lt_of_maps_to (t := range out.count)
        · rw [card_range]; omega
        · intro z hz; exact mem_coe.2 (mem_range.2 (hg1 z hz))
      obtain ⟨x, hx, y, hy, hne, he⟩ := this
      apply hne
      ext i
      have e1 := hg2 x hx i i.2
      have e2 := hg2 y hy i i.2
      rw [he] at e1
      have := e1.symm.trans e2
      rw [ext0_val, ext0_val] at this
      exact_mod_cast this
  subst hfull
  obtain ⟨-, g2, g3, g4⟩ := hc.filled rfl
  have hpt := hc.pt
  have hne := hc.ne
  have hcov := hc.cover
  simp only [if_true] at hpt hne hcov
  have hpt' : ∀ c, ∃ z : Fin n → Int, c < m →
      (∀ r : Fin n, out.cands c r = (z r : K)) ∧ out.norms c = distZ (ltdlMat n L D) (toVec n a) z := by
    intro c
    by_cases h : c < m
    · obtain ⟨z, -, q1, q2⟩ := hpt c h
      exact ⟨fun i => z i, fun _ => ⟨fun r => q1 r r.2, by rw [q2, hdist]⟩⟩
    · exact ⟨0, fun h' => absurd h' h⟩
  choose pt hpt using hpt'
  set idx := (List.range m).insertionSort fun i j => out.norms i ≤ out.norms j with hidx
  have hperm : idx.Perm (List.range m) := List.perm_insertionSort _ _
  have hlt : ∀ c ∈ idx, c < m := fun c hc => List.mem_range.1 (hperm.mem_iff.1 hc)
  refine ⟨idx.map pt, ⟨?_, ?_, ?_⟩, ?_⟩
  · refine List.Nodup.map_on (fun x hx y hy hxy => ?_) (hperm.nodup_iff.2 List.nodup_range)
    by_contra hcon
    obtain ⟨r, hr, hrne⟩ := hne x (hlt x hx) y (hlt y hy) hcon
    apply hrne
    have e1 := (hpt x (hlt x hx)).1 ⟨r, hr⟩
    have e2 := (hpt y (hlt y hy)).1 ⟨r, hr⟩
    dsimp only at e1 e2
    rw [e1, e2, hxy]
  · rw [List.pairwise_map]
    have htrans : IsTrans Nat fun i j => out.norms i ≤ out.norms j := ⟨fun _ _ _ h1 h2 => h1.trans h2⟩
    have htot : Std.Total fun i j => out.norms i ≤ out.norms j := ⟨fun i j => le_total _ _⟩
    have hs : idx.Pairwise fun i j => out.norms i ≤ out.norms j := List.pairwise_insertionSort _ _
    refine hs.imp_of_mem fun {x y} hx hy hxy => ?_
    rw [← (hpt x (hlt x hx)).2, ← (hpt y (hlt y hy)).2]; exact hxy
  · intro z hz w hw
    obtain ⟨c, hcm, rfl⟩ := List.mem_map.1 hw
    rw [← (hpt c (hlt c hcm)).2]
    rcases hcov (ext0 z) trivial with ⟨c', h2, h3⟩ | h2
    · exfalso
      apply hz
      refine List.mem_map.2 ⟨c', hperm.mem_iff.2 (List.mem_range.2 h2), ?_⟩
      ext i
      have e1 := (hpt c' h2).1 i
      have e2 := h3 i i.2
      rw [ext0_val] at e2
      have := e1.symm.trans e2
      exact_mod_cast this
    · rw [← hdist']
      exact (g4 c (hlt c hcm)).trans h2
  · rw [List.map_map, List.map_map]
    apply List.map_congr_left
    intro c hcm
    show (out.norms c, toVec n (out.cands c)) = _
    have := hpt c (hlt c hcm)
    refine Prod.ext this.2 ?_
    funext i
    exact this.1 i

end Generic

/-! ### The factorisation -/

theorem quad_eq (n : Nat) (S : Mat ℝ) (x : Fin n → ℝ) (y : Vec ℝ) (h : ∀ i : Fin n, y i = x i) :
    quad n S y = x ⬝ᵥ (toMat n S *ᵥ x) := by
  unfold quad dotProduct
  rw [Finset.sum_range]
  apply sum_congr rfl
  intro a _
  have : (toMat n S *ᵥ x) a = ∑ b : Fin n, S a b * x b := rfl
  rw [this, mul_sum, Finset.sum_range]
  apply sum_congr rfl
  intro b _
  rw [h a, h b]; ring

theorem posDefOn_iff (n : Nat) (S : Mat ℝ) : (SymmOn n S ∧ PosDefOn n S) ↔ PosDef (toMat n S) := by
  constructor
  · rintro ⟨hs, hp⟩
    refine ⟨?_, fun x hx => ?_⟩
    · ext a b; exact hs b b.2 a a.2
    · set y : Vec ℝ := fun i => if h : i < n then x ⟨i, h⟩ else 0 with hy
      have hyx : ∀ i : Fin n, y i = x i := by intro i; rw [hy]; simp
      rw [← quad_eq n S x y hyx]
      apply hp
      by_contra hcon
      push Not at hcon
      apply hx
      funext i
      rw [← hyx i]; exact hcon i i.2
  · rintro ⟨hs, hp⟩
    refine ⟨fun a ha b hb => ?_, fun x ⟨i, hi, hx⟩ => ?_⟩
    · have := congrFun (congrFun hs ⟨b, hb⟩) ⟨a, ha⟩; exact this
    · rw [quad_eq n S (fun i => x i) x fun _ => rfl]
      apply hp
      intro hcon
      exact hx (congrFun hcon ⟨i, hi⟩)

end Verif.Lambda
