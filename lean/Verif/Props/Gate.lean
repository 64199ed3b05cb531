import Verif.Model.Gate
import Mathlib.LinearAlgebra.Matrix.PosDef
/-!
# C152: the gate of the generated filter
-/
namespace Verif.Props.Gate
open Verif.Gate Verif.Spec.Gate MeasureTheory ProbabilityTheory

instance (d : ℕ) : IsProbabilityMeasure (normals d) := by unfold normals; infer_instance

theorem measurable_ball (d : ℕ) (x : ℝ) : MeasurableSet {z : Fin d → ℝ | ∑ i, z i ^ 2 ≤ x} := by
  apply measurableSet_le _ measurable_const
  fun_prop

/-- The probability that one standard normal number has a square above `x`. -/
noncomputable def outside (x : ℝ) : ℝ := (gaussianReal 0 1).real {a | x < a ^ 2}

theorem outside_pos (x : ℝ) : 0 < outside x := by
  unfold outside
  rw [measureReal_def, ENNReal.toReal_pos_iff]
  refine ⟨?_, measure_lt_top _ _⟩
  rw [pos_iff_ne_zero]
  intro h
  have := gaussianReal_absolutelyContinuous' 0 (v := 1) one_ne_zero h
  have o : IsOpen {a : ℝ | x < a ^ 2} := isOpen_lt continuous_const (by fun_prop)
  refine (o.measure_pos volume ⟨|x| + 1, ?_⟩).ne' this
  show x < (|x| + 1) ^ 2
  nlinarith [abs_nonneg x, le_abs_self x]

/-- One more number makes the sum larger. -/
theorem chi2_succ (d : ℕ) (x : ℝ) : chi2 (d + 1) x ≤ (1 - outside x) * chi2 d x := by
  have mp := measurePreserving_piFinSuccAbove (fun _ : Fin (d + 1) => gaussianReal 0 1) 0
  set A : Set (Fin d → ℝ) := {z | ∑ i, z i ^ 2 ≤ x} with hA
  set B : Set (ℝ × (Fin d → ℝ)) := {p | p.1 ^ 2 + ∑ i, p.2 i ^ 2 ≤ x} with hB
  set R1 : Set ℝ := {a | x < a ^ 2} with hR
  have mB : MeasurableSet B := by
    apply measurableSet_le _ measurable_const
    fun_prop
  have mR : MeasurableSet R1 := measurableSet_lt measurable_const (by fun_prop)
  have mA : MeasurableSet A := measurable_ball d x
  have e : chi2 (d + 1) x = ((gaussianReal 0 1).prod (normals d)).real B := by
    unfold chi2 normals
    rw [measureReal_def, measureReal_def, ← mp.measure_preimage mB.nullMeasurableSet]
    congr 2
    ext z
    simp [hB, Fin.sum_univ_succ, MeasurableEquiv.piFinSuccAbove, Fin.insertNthEquiv, Fin.tail]
  have disj : Disjoint B (R1 ×ˢ A) := by
    rw [Set.disjoint_left]
    rintro ⟨a, z⟩ h1 h2
    have h3 : x < a ^ 2 := h2.1
    have h4 : a ^ 2 + ∑ i, z i ^ 2 ≤ x := h1
    have : 0 ≤ ∑ i, z i ^ 2 := Finset.sum_nonneg fun i _ => sq_nonneg _
    linarith
  have sub : B ∪ R1 ×ˢ A ⊆ Set.univ ×ˢ A := by
    rintro ⟨a, z⟩ h
    refine ⟨trivial, ?_⟩
    rcases h with h | h
    · have h4 : a ^ 2 + ∑ i, z i ^ 2 ≤ x := h
      show ∑ i, z i ^ 2 ≤ x
      linarith [sq_nonneg a]
    · exact h.2
  have h := measureReal_mono (μ := (gaussianReal 0 1).prod (normals d)) sub
  rw [measureReal_union disj (mR.prod mA), measureReal_prod_prod, measureReal_prod_prod] at h
  rw [e]
  unfold outside chi2
  simp only [probReal_univ, one_mul] at h
  linarith

theorem chi2_nonneg (d : ℕ) (x : ℝ) : 0 ≤ chi2 d x := measureReal_nonneg

theorem chi2_zero {x : ℝ} (hx : 0 ≤ x) : chi2 0 x = 1 := by
  unfold chi2
  have : {z : Fin 0 → ℝ | ∑ i, z i ^ 2 ≤ x} = Set.univ := by ext z; simp [hx]
  rw [this, probReal_univ]

theorem chi2_pos (d : ℕ) {x : ℝ} (hx : 0 < x) : 0 < chi2 d x := by
  unfold chi2
  rw [measureReal_def, ENNReal.toReal_pos_iff]
  refine ⟨?_, measure_lt_top _ _⟩
  -- a cube inside the ball
  have hc : (Set.univ.pi fun _ : Fin d => {a : ℝ | a ^ 2 < x / (d + 1)}) ⊆ {z : Fin d → ℝ | ∑ i, z i ^ 2 ≤ x} := by
    intro z hz
    have : ∑ i, z i ^ 2 ≤ ∑ _i : Fin d, x / (d + 1) := Finset.sum_le_sum fun i _ => (hz i trivial).le
    refine this.trans ?_
    rw [Finset.sum_const, Finset.card_univ, Fintype.card_fin, nsmul_eq_mul, mul_div_assoc', div_le_iff₀ (by positivity)]
    nlinarith
  refine lt_of_lt_of_le ?_ (measure_mono hc)
  unfold normals
  rw [Measure.pi_pi, pos_iff_ne_zero, Finset.prod_ne_zero_iff]
  intro i _ h
  have := gaussianReal_absolutelyContinuous' 0 (v := 1) one_ne_zero h
  have o : IsOpen {a : ℝ | a ^ 2 < x / (d + 1)} := isOpen_lt (by fun_prop) continuous_const
  exact (o.measure_pos volume ⟨0, by show (0 : ℝ) ^ 2 < x / (d + 1); rw [zero_pow two_ne_zero]; positivity⟩).ne' this

theorem chi2_one_zero : chi2 1 0 = 0 := by
  have h := chi2_nonneg 1 0
  unfold chi2 at h ⊢
  have e : {z : Fin 1 → ℝ | ∑ i, z i ^ 2 ≤ 0} = Set.univ.pi fun _ => {0} := by
    ext z
    simp only [Finset.univ_unique, Fin.default_eq_zero, Fin.isValue, Finset.sum_singleton, Set.mem_ofPred_eq, Set.mem_pi, Set.mem_univ,
      Set.mem_singleton_iff, forall_const]
    constructor
    · intro h i
      have : z 0 ^ 2 = 0 := le_antisymm h (sq_nonneg _)
      rw [Subsingleton.elim i 0]
      exact pow_eq_zero_iff two_ne_zero |>.1 this
    · intro h
      rw [h 0]; simp
  rw [e, measureReal_def]
  unfold normals
  rw [Measure.pi_pi]
  have := nullSingletonClass_gaussianReal (μ := 0) (v := 1) one_ne_zero
  simp

/-- The first NaN. -/
theorem argmin_nan (f : ℕ → Option ℝ) (h : f 0 = none) (n : ℕ) : argmin f n = 0 := by
  induction n with
  | zero => rfl
  | succ n ih => simp [argmin, ih, h]

theorem argmin_spec (g : ℕ → ℝ) (n : ℕ) : argmin (fun i => some (g i)) n ≤ n ∧ ∀ i ≤ n, g (argmin (fun i => some (g i)) n) ≤ g i := by
  induction n with
  | zero => simp [argmin]
  | succ n ih =>
    obtain ⟨i1, i2⟩ := ih
    simp only [argmin]
    split_ifs with h
    · refine ⟨le_rfl, fun i hi => ?_⟩
      rcases Nat.lt_or_ge n i with h' | h'
      · rw [show i = n + 1 by omega]
      · exact h.le.trans (i2 i h')
    · refine ⟨by omega, fun i hi => ?_⟩
      rcases Nat.lt_or_ge n i with h' | h'
      · rw [show i = n + 1 by omega]; exact not_lt.1 h
      · exact i2 i h'

/-- **C152.** The index that numpy's `argmin` is modelled by: the first NaN if there is one, else the first least element. -/
theorem C152_argmin (f : ℕ → Option ℝ) (n : ℕ) : argmin f n ≤ n ∧
    ((∃ i ≤ n, f i = none) → f (argmin f n) = none ∧ ∀ i < argmin f n, f i ≠ none) ∧
    ((∀ i ≤ n, f i ≠ none) → ∃ u, f (argmin f n) = some u ∧
      (∀ i ≤ n, ∀ w, f i = some w → u ≤ w) ∧ ∀ i < argmin f n, ∀ w, f i = some w → u < w) := by
  induction n with
  | zero =>
    refine ⟨le_rfl, ?_, ?_⟩
    · rintro ⟨i, hi, h⟩
      obtain rfl : i = 0 := by omega
      exact ⟨h, fun i hi => absurd hi (Nat.not_lt_zero _)⟩
    · intro h
      obtain ⟨u, hu⟩ := Option.ne_none_iff_exists'.1 (h 0 le_rfl)
      refine ⟨u, hu, fun i hi w hw => ?_, fun i hi => absurd hi (Nat.not_lt_zero _)⟩
      obtain rfl : i = 0 := by omega
      rw [hu] at hw
      exact (Option.some.inj hw).le
  | succ n ih =>
    obtain ⟨i1, i2, i3⟩ := ih
    by_cases hN : ∃ i ≤ n, f i = none
    · obtain ⟨a, b⟩ := i2 hN
      have e : argmin f (n + 1) = argmin f n := by simp [argmin, a]
      rw [e]
      refine ⟨by omega, fun _ => ⟨a, b⟩, fun h => ?_⟩
      obtain ⟨i, hi, hn⟩ := hN
      exact absurd hn (h i (by omega))
    · push Not at hN
      obtain ⟨u, hu, hl, hf⟩ := i3 hN
      cases hv : f (n + 1) with
      | none =>
        have e : argmin f (n + 1) = n + 1 := by simp [argmin, hu, hv]
        rw [e]
        exact ⟨le_rfl, fun _ => ⟨hv, fun i hi => hN i (by omega)⟩, fun h => absurd hv (h _ le_rfl)⟩
      | some v =>
        have e : argmin f (n + 1) = if v < u then n + 1 else argmin f n := by simp [argmin, hu, hv]
        rw [e]
        split_ifs with hc
        · refine ⟨le_rfl, ?_, fun _ => ⟨v, hv, ?_, fun i hi w hw => hc.trans_le (hl i (by omega) w hw)⟩⟩
          · rintro ⟨i, hi, hn⟩
            rcases Nat.lt_or_ge n i with h' | h'
            · obtain rfl : i = n + 1 := by omega
              rw [hv] at hn; cases hn
            · exact absurd hn (hN i h')
          · intro i hi w hw
            rcases Nat.lt_or_ge n i with h' | h'
            · obtain rfl : i = n + 1 := by omega
              rw [hv] at hw
              exact (Option.some.inj hw).le
            · exact hc.le.trans (hl i h' w hw)
        · refine ⟨by omega, ?_, fun _ => ⟨u, hu, ?_, hf⟩⟩
          · rintro ⟨i, hi, hn⟩
            rcases Nat.lt_or_ge n i with h' | h'
            · obtain rfl : i = n + 1 := by omega
              rw [hv] at hn; cases hn
            · exact absurd hn (hN i h')
          · intro i hi w hw
            rcases Nat.lt_or_ge n i with h' | h'
            · obtain rfl : i = n + 1 := by omega
              rw [hv] at hw
              rw [← Option.some.inj hw]
              exact not_lt.1 hc
            · exact hl i h' w hw

/-- The first NaN, in the middle. -/
example : argmin (fun i => if i = 1 ∨ i = 3 then none else some (i : ℝ)) 4 = 1 := by
  obtain ⟨-, h, -⟩ := C152_argmin (fun i => if i = 1 ∨ i = 3 then none else some (i : ℝ)) 4
  obtain ⟨h1, h2⟩ := h ⟨1, by norm_num, by simp⟩
  by_contra hc
  rcases Nat.lt_or_ge 1 (argmin (fun i => if i = 1 ∨ i = 3 then none else some (i : ℝ)) 4) with h' | h'
  · exact h2 1 h' (by simp)
  · have h0 : argmin (fun i => if i = 1 ∨ i = 3 then none else some (i : ℝ)) 4 = 0 := by omega
    rw [h0] at h1
    simp at h1

/-- **C152.** The quantity that is compared with the limit has the chi-square distribution with as many degrees of freedom as the
measurement has elements: for a residual `L z` with the covariance `L Lᵀ` it is the sum of the squares of `z`. -/
theorem C152_mahal {n : ℕ} (L : Matrix (Fin n) (Fin n) ℝ) (hL : IsUnit L.det) (z : Fin n → ℝ) :
    mahal (L * L.transpose) (L.mulVec z) = ∑ i, z i ^ 2 := by
  unfold mahal
  have hT : IsUnit L.transpose.det := by rwa [Matrix.det_transpose]
  rw [Matrix.mul_inv_rev, Matrix.mulVec_mulVec, Matrix.mul_assoc, Matrix.nonsing_inv_mul L hL, Matrix.mul_one,
    Matrix.dotProduct_mulVec, ← Matrix.vecMul_transpose, Matrix.vecMul_vecMul, Matrix.mul_nonsing_inv _ hT, Matrix.vecMul_one]
  simp [dotProduct, sq]

/-- What a gate with the probability `prob` should do: among the limits of the grid, the one whose chance to accept a consistent measurement
is closest to `prob`. -/
def C152_statement : Prop :=
  ∀ (size : ℕ) (prob m : ℝ), 1 ≤ size → 0 < prob → prob < 1 → maxMahal size prob = some m →
    ∀ i : ℕ, i < 100000 → |chi2 size m - prob| ≤ |chi2 size (i / 100) - prob|

/-- **C152, restricted.** The limit is the best of the grid for a measurement with one element less; probabilities from one on accept
everything. -/
theorem C152_limit_partial (size : ℕ) (prob : ℝ) (hs : 2 ≤ size) :
    (prob < 1 → ∃ m, maxMahal size prob = some m ∧ (∃ k : ℕ, k < 100000 ∧ m = k / 100) ∧
      ∀ i : ℕ, i < 100000 → |chi2 (size - 1) m - prob| ≤ |chi2 (size - 1) (i / 100) - prob|) ∧
    (1 ≤ prob → ∀ (S : Matrix (Fin size) (Fin size) ℝ) (res : Fin size → ℝ), ¬Gated prob S res) := by
  constructor
  · intro hp
    have hz : size - 1 ≠ 0 := by omega
    unfold maxMahal scipyCdf
    simp only [if_pos hp, if_neg hz, Option.map_some]
    obtain ⟨h1, h2⟩ := argmin_spec (fun i => |chi2 (size - 1) (grid i) - prob|) 99999
    exact ⟨_, rfl, ⟨_, Nat.lt_of_le_of_lt h1 (by norm_num), rfl⟩, fun i hi => h2 i (by omega)⟩
  · rintro hp S res ⟨m, h, -⟩
    unfold maxMahal at h
    rw [if_neg (not_lt.2 hp)] at h
    simp at h

/-- **C152, violated.** So the gate rejects too much: a consistent measurement passes any positive limit with a chance that is smaller
than the one the limit was made for, by a factor that depends on the limit only. -/
theorem C152_chance_violated (d : ℕ) {m : ℝ} (hm : 0 < m) :
    chi2 (d + 1) m ≤ (1 - outside m) * chi2 d m ∧ 0 < outside m ∧ chi2 (d + 1) m < chi2 d m := by
  have h1 := chi2_succ d m
  have h2 := outside_pos m
  have h3 := chi2_pos d hm
  exact ⟨h1, h2, by nlinarith⟩

theorem limit_one {prob : ℝ} (hp : prob < 1) : maxMahal 1 prob = some 0 := by
  unfold maxMahal scipyCdf
  rw [if_pos hp, argmin_nan _ (by simp)]
  simp [grid]

/-- **C152, violated.** A gate of a measurement with one element rejects every residual but zero, whatever its probability: the limit is
zero, and a consistent measurement passes with chance zero. -/
theorem C152_scalar_violated {prob : ℝ} (hp : prob < 1) (S : Matrix (Fin 1) (Fin 1) ℝ) (hS : 0 < S 0 0) (res : Fin 1 → ℝ) :
    (Gated prob S res ↔ res 0 ≠ 0) ∧ ∃ m, maxMahal 1 prob = some m ∧ chi2 1 m = 0 := by
  refine ⟨?_, 0, limit_one hp, chi2_one_zero⟩
  have e : mahal S res = res 0 * ((S 0 0)⁻¹ * res 0) := by
    unfold mahal
    have : S⁻¹ 0 0 = (S 0 0)⁻¹ := by
      rw [Matrix.inv_def, Matrix.smul_apply]
      simp [Matrix.det_unique, Matrix.adjugate_subsingleton]
    simp [dotProduct, Matrix.mulVec]
  unfold Gated
  rw [limit_one hp]
  have i : 0 < (S 0 0)⁻¹ := inv_pos.2 hS
  constructor
  · rintro ⟨m, h, h'⟩ h0
    rw [Option.some.injEq] at h
    rw [e, h0, ← h] at h'
    simp at h'
  · intro h
    refine ⟨0, rfl, ?_⟩
    rw [e, show res 0 * ((S 0 0)⁻¹ * res 0) = (S 0 0)⁻¹ * (res 0 * res 0) by ring]
    exact mul_pos i (mul_self_pos.2 h)

theorem C152_statement_false : ¬ C152_statement := by
  intro h
  have h1 := h 1 (1 / 2) 0 le_rfl (by norm_num) (by norm_num) (limit_one (by norm_num)) 100 (by norm_num)
  rw [show ((100 : ℕ) : ℝ) / 100 = grid 100 from rfl] at h1
  have hg : (0 : ℝ) < grid 100 := by unfold grid; norm_num
  have h2 := chi2_pos 1 hg
  have h3 := (C152_chance_violated 0 hg).2.2
  rw [chi2_zero hg.le] at h3
  rw [chi2_one_zero] at h1
  have : |chi2 1 (grid 100) - 1 / 2| < 1 / 2 := by
    rw [abs_lt]; constructor <;> linarith
  have e : |(0 : ℝ) - 1 / 2| = 1 / 2 := by rw [abs_of_neg] <;> norm_num
  linarith

/-- A measurement that should pass the gate nearly always. -/
example : Gated (n := 1) (99 / 100) (fun _ _ => 1) (fun _ => 1 / 1000) :=
  ((C152_scalar_violated (by norm_num) _ one_pos _).1).2 (by norm_num)

end Verif.Props.Gate
