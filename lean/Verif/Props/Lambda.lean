import Verif.Lemmas.LambdaBridge
import Mathlib.Data.Rat.Floor
import Mathlib.Tactic.NormNum
/-!
# C31-C33: integer ambiguity resolution (core/solver/lambda.cxx)
-/
namespace Verif.Props.Lambda
open Verif.Lambda Verif.LambdaSpec Matrix

/-! ### C31 -/

/-- C31: for a symmetric matrix, `LTDL` passes its final check exactly when the matrix is positive
definite, and then returns a unit lower triangular `L` and a positive `D` with `Lᵀ diag(D) L = Q`,
whatever the output arguments contained before. -/
theorem C31_ltdl (N : Nat) (Q L0 : Mat ℝ) (D0 : Vec ℝ) (hs : (toMat N Q)ᵀ = toMat N Q) :
    ((ltdl N Q L0 D0).isSome ↔ PosDef (toMat N Q)) ∧
    ∀ L D, ltdl N Q L0 D0 = some (L, D) →
      (∀ i < N, L i i = 1) ∧ (∀ r c, r < c → L r c = 0) ∧ (∀ i < N, 0 < D i) ∧
      (toMat N L)ᵀ * diagonal (fun i : Fin N => D i) * toMat N L = toMat N Q := by
  have hsym : SymmOn N Q := by
    intro a ha b hb
    exact congrFun (congrFun hs ⟨b, hb⟩) ⟨a, ha⟩
  set L' : Mat ℝ := fun r c => if r < c then 0 else L0 r c with hL'
  have hup0 : ∀ r c, r < c → L' r c = 0 := by intro r c h; rw [hL']; simp [h]
  have hup := ltdlLoop_upper N Q L' D0 hup0
  have hfac : (∀ i < N, 0 < (ltdlLoop N Q L' D0).2 i) → _ :=
    ltdlLoop_factor N Q Q L' D0 hsym (fun _ _ _ _ => rfl) hup0
  have hiff : (∀ i < N, 0 < (ltdlLoop N Q L' D0).2 i) ↔ PosDef (toMat N Q) := by
    rw [← posDefOn_iff]
    constructor
    · intro h
      obtain ⟨h1, h2⟩ := hfac h
      exact ⟨hsym, posDef_of_gram N _ _ Q h h1 hup h2⟩
    · intro h
      exact ltdlLoop_pos N Q Q L' D0 hsym h.2 (fun _ _ _ _ => rfl)
  have hdef : ltdl N Q L0 D0 =
      if ∀ i < N, 0 < (ltdlLoop N Q L' D0).2 i then some (ltdlLoop N Q L' D0) else none := by
    unfold ltdl; rfl
  rw [hdef]
  refine ⟨?_, fun L D h => ?_⟩
  · rw [← hiff]; split_ifs with h
    · exact ⟨fun _ => h, fun _ => rfl⟩
    · simp only [Option.isSome_none, Bool.false_eq_true, false_iff]; exact h
  · split_ifs at h with hp
    have he := Option.some.inj h
    obtain ⟨h1, h2⟩ := hfac hp
    rw [he] at h1 h2 hup hp
    refine ⟨h1, hup, hp, ?_⟩
    ext a b
    exact (ltdlMat_apply N L D a b).trans (h2 a a.2 b b.2)

/-- A matrix meeting the hypothesis: `[[2, 1], [1, 2]]`. -/
def exQ : Mat ℝ := fun r c => if r = c then 2 else 1

theorem exQ_symm : (toMat 2 exQ)ᵀ = toMat 2 exQ := by
  ext i j; simp only [toMat, exQ, Matrix.transpose_apply, Matrix.of_apply, eq_comm]

theorem exQ_pos : PosDef (toMat 2 exQ) := by
  refine ⟨exQ_symm, fun x hx => ?_⟩
  have h : x ⬝ᵥ (toMat 2 exQ *ᵥ x) = x 0 ^ 2 + x 1 ^ 2 + (x 0 + x 1) ^ 2 := by
    simp [dotProduct, mulVec, Fin.sum_univ_two, toMat, exQ]; ring
  rw [h]
  by_contra hcon
  have h0 : x 0 = 0 := by
    have := sq_nonneg (x 0); have := sq_nonneg (x 1); have := sq_nonneg (x 0 + x 1)
    exact pow_eq_zero_iff (n := 2) (by norm_num) |>.1 (by linarith)
  have h1 : x 1 = 0 := by
    have := sq_nonneg (x 0); have := sq_nonneg (x 1); have := sq_nonneg (x 0 + x 1)
    exact pow_eq_zero_iff (n := 2) (by norm_num) |>.1 (by linarith)
  exact hx (by ext i; fin_cases i <;> assumption)

example : (ltdl 2 exQ (fun _ _ => 7) (fun _ => -3)).isSome := (C31_ltdl 2 exQ _ _ exQ_symm).1.2 exQ_pos

/-! ### C32 -/

/-- Entry `c` of `Zᵀ a`. -/
theorem est_apply (N : Nat) (Z : Mat ℝ) (a : Vec ℝ) (c : Fin N) :
    ((toMat N Z)ᵀ *ᵥ toVec N a) c = ∑ p ∈ Finset.range N, Z p c * a p := by
  rw [Finset.sum_range]; rfl

/-- C32: for every symmetric positive definite `Q` the reduction ends; it returns an integer matrix `Z` of
determinant plus or minus one, factors of `Zᵀ Q Z` with the same form as `LTDL`'s, and the transformed
estimate `Zᵀ a`.  Moreover the factors are reduced: no entry below the diagonal exceeds one half, and no
exchange of neighbours would decrease the later pivot. -/
theorem C32_reduction (N : Nat) (hN : 1 ≤ N) (Q : Mat ℝ) (a : Vec ℝ) (L0 : Mat ℝ) (D0 : Vec ℝ)
    (hQ : PosDef (toMat N Q)) :
    ∃ fuel0, ∀ fuel, fuel0 ≤ fuel → ∃ out, reduction N fuel Q a L0 D0 = some out ∧
      (∃ W : Matrix (Fin N) (Fin N) Int, (W.det = 1 ∨ W.det = -1) ∧
        toMat N out.Z = W.map (fun x => (x : ℝ))) ∧
      (toMat N out.L)ᵀ * diagonal (toVec N out.D) * toMat N out.L =
        (toMat N out.Z)ᵀ * toMat N Q * toMat N out.Z ∧
      toVec N out.a = (toMat N out.Z)ᵀ *ᵥ toVec N a ∧
      (∀ i < N, out.L i i = 1) ∧ (∀ r c, r < c → out.L r c = 0) ∧ (∀ i < N, 0 < out.D i) ∧
      (∀ r c, c < r → r < N → |out.L r c| ≤ 1 / 2) ∧
      (∀ k, k + 1 < N → out.D (k + 1) ≤ out.D k + out.L (k + 1) k ^ 2 * out.D (k + 1)) := by
  obtain ⟨h31, h31'⟩ := C31_ltdl N Q L0 D0 hQ.1
  obtain ⟨p, hp⟩ := Option.isSome_iff_exists.1 (h31.2 hQ)
  obtain ⟨h1, hup, hpos, hfac⟩ := h31' p.1 p.2 hp
  have hgram : ∀ x < N, ∀ y < N, gram N p.1 p.2 x y = Q x y := by
    intro x hx y hy
    rw [← ltdlMat_apply N p.1 p.2 ⟨x, hx⟩ ⟨y, hy⟩]
    exact congrFun (congrFun hfac ⟨x, hx⟩) ⟨y, hy⟩
  set s0 : Red ℝ := ⟨p.1, p.2, a, fun r c => if r = c then 1 else 0⟩ with hs0
  have hinv : RInv N Q a s0 := by
    refine ⟨h1, hup, hpos, fun x hx y hy => ?_, fun c hc => ?_, unimodular_one N⟩
    · show gram N p.1 p.2 x y = _
      rw [hgram x hx y hy]
      unfold congr2
      rw [Finset.sum_eq_single x, Finset.sum_eq_single y]
      · simp [hs0]
      · intro b _ hb; simp [hs0, hb]
      · intro hc; exact absurd (Finset.mem_range.2 hy) hc
      · intro b _ hb; simp [hs0, hb]
      · intro hc; exact absurd (Finset.mem_range.2 hx) hc
    · show a c = _
      rw [Finset.sum_eq_single c]
      · simp [hs0]
      · intro b _ hb; simp [hs0, hb]
      · intro h; exact absurd (Finset.mem_range.2 hc) h
  have hk1 : ∀ c, N - 2 < c → ∀ r < N, c < r → |s0.L r c| ≤ 1 / 2 := by intro c hc r hr hcr; omega
  -- a bound for the pivots
  obtain ⟨M, hM⟩ : ∃ M : ℝ, ∀ i < N, s0.D i ≤ M := by
    refine ⟨∑ i ∈ Finset.range N, p.2 i, fun i hi => ?_⟩
    exact Finset.single_le_sum (f := p.2) (fun j hj => (hpos j (Finset.mem_range.1 hj)).le) (Finset.mem_range.2 hi)
  choose F hF using fun q => tailProd_finite (a0 := a) hpos h1 hup hgram M q
  refine ⟨potential N F s0.D + 1, fun fuel hf => ?_⟩
  have hsome := reduceLoop_ends M F hN hF fuel (N - 2) s0 hinv hk1 hM (by omega)
  obtain ⟨out, hout⟩ := Option.isSome_iff_exists.1 hsome
  obtain ⟨r1, r2, r3⟩ := reduceLoop_spec fuel (N - 2) s0 out hinv hk1 hout hN
  refine ⟨out, ?_, ?_, ?_, ?_, r1.unit, r1.upper, r1.dpos, fun r c hcr hr => r2 c (Nat.zero_le c) r hr hcr, fun k hk => ?_⟩
  · unfold reduction
    rw [hp]; exact hout
  · obtain ⟨W, hd, hW⟩ := r1.unim
    exact ⟨W, hd, by ext r c; exact hW r c⟩
  · ext x y
    exact (ltdlMat_apply N out.L out.D x y).trans ((r1.fact x x.2 y y.2).trans (congr2_apply N out.Z Q x y).symm)
  · funext c
    rw [est_apply]; exact r1.est c c.2
  · have := r3 k hk
    unfold Ordered at this
    rw [pow_two]; exact this

example : PosDef (toMat 2 exQ) ∧ 1 ≤ 2 := ⟨exQ_pos, by norm_num⟩

/-! ### C33 -/

/-- C33 as stated: whenever the search returns, it returns the nearest integer vectors with their distances. -/
def C33_statement : Prop :=
  ∀ (n m : Nat), 0 < n → 0 < m → ∀ (L : Mat ℚ) (D a : Vec ℚ), (∀ i < n, 0 < D i) → (∀ i < n, L i i = 1) →
    (∀ r c, r < c → L r c = 0) → ∀ fuel res, search n m L D a fuel = some res →
    ∃ zs : List (Fin n → Int), Best (ltdlMat n L D) (toVec n a) zs ∧
      res.map (fun p => (p.1, toVec n p.2)) = zs.map fun z => (distZ (ltdlMat n L D) (toVec n a) z, fun i => (z i : ℚ))

/-- One ambiguity of 3.1 cycles with variance `5e-20`. -/
def farL : Mat ℚ := fun r c => if r = c then 1 else 0
def farD : Vec ℚ := fun _ => 1 / (2 * 10 ^ 19)
def farA : Vec ℚ := fun _ => 31 / 10

/-- The second candidate is beyond the initial bound `1e18`, so its slot keeps the initial zeros, and
sorting moves that slot to the front: the vector reported as the best is 0, at distance 0, while the nearest
integer is 3. -/
theorem C33_bound_violated :
    (search 1 2 farL farD farA 100).map (fun res => res.map fun p => (p.1, p.2 0)) =
      some [(0, 0), (2 * 10 ^ 17, 3)] := by
  decide +kernel

theorem C33_statement_false : ¬ C33_statement := by
  intro h
  have hw := C33_bound_violated
  obtain ⟨res, hres, hmap⟩ := Option.map_eq_some_iff.1 hw
  obtain ⟨zs, hb, hz⟩ := h 1 2 (by norm_num) (by norm_num) farL farD farA (fun _ _ => by norm_num [farD])
    (fun _ _ => by simp [farL]) (fun r c hrc => by simp [farL, Nat.ne_of_lt hrc]) 100 res hres
  -- the first entry says that 0 has distance 0
  cases res with
  | nil => simp at hmap
  | cons p ps =>
    cases zs with
    | nil => simp at hz
    | cons z zs =>
      simp only [List.map_cons, List.cons.injEq, Prod.mk.injEq] at hmap hz
      obtain ⟨⟨hp1, hp2⟩, -⟩ := hmap
      obtain ⟨⟨hz1, hz2⟩, -⟩ := hz
      have hz0 : (z 0 : ℚ) = 0 := by rw [← hp2]; exact (congrFun hz2 0).symm
      have hpos : 0 < distZ (ltdlMat 1 farL farD) (toVec 1 farA) z := by
        have hfd := fdist_eq (n := 1) (a := farA) (L := farL) (D := farD) (fun _ _ => by norm_num [farD])
          (fun _ _ => by simp [farL]) (fun r c hrc => by simp [farL, Nat.ne_of_lt hrc]) (fun _ => z 0)
        have e : distZ (ltdlMat 1 farL farD) (toVec 1 farA) z =
            sqDist (ltdlMat 1 farL farD) (fun i : Fin 1 => ((z 0 : Int) : ℚ) - farA i) := by
          unfold distZ; congr 1; funext i; fin_cases i; rfl
        rw [e, ← hfd]
        unfold fdist
        rw [Finset.sum_range_one, cond_eq]
        simp [hz0, farA, farD]
      rw [← hz1, hp1] at hpos
      exact lt_irrefl _ hpos

/-- C33 (partial): for every unit lower triangular `L`, positive `D`, float vector and number of candidates
`m`, the search ends; if at least `m` integer vectors are nearer than the initial bound `1e18`, it returns the
`m` nearest integer vectors, in order of distance, with their exact distances in the metric of
`(Lᵀ diag(D) L)⁻¹`.  Missing: the case of fewer near vectors, where the answer is wrong (above). -/
theorem C33_search_partial {K : Type} [Field K] [LinearOrder K] [IsStrictOrderedRing K] [FloorRing K]
    (n m : Nat) (hn : 0 < n) (hm : 0 < m) (L : Mat K) (D a : Vec K)
    (hd : ∀ i < n, 0 < D i) (h1 : ∀ i < n, L i i = 1) (hu : ∀ r c, r < c → L r c = 0) :
    ∃ fuel0, ∀ fuel, fuel0 ≤ fuel → ∃ res, search n m L D a fuel = some res ∧ res.length = m ∧
      ((∃ S : Finset (Fin n → Int), m ≤ S.card ∧
          ∀ z ∈ S, distZ ((toMat n L)ᵀ * diagonal (toVec n D) * toMat n L) (toVec n a) z < 10 ^ 18) →
        ∃ zs : List (Fin n → Int), Best ((toMat n L)ᵀ * diagonal (toVec n D) * toMat n L) (toVec n a) zs ∧
          res.map (fun p => (p.1, toVec n p.2)) =
            zs.map fun z => (distZ ((toMat n L)ᵀ * diagonal (toVec n D) * toMat n L) (toVec n a) z,
              fun i => (z i : K))) :=
  search_best hn hm hd h1 hu

/-- A run: two correlated ambiguities, three candidates. -/
def exL : Mat ℚ := fun r c => if r = c then 1 else if c < r then 1 / 2 else 0
def exD : Vec ℚ := fun i => if i = 0 then 1 / 4 else 1
def exA : Vec ℚ := fun i => if i = 0 then 5 / 4 else 29 / 10

example : (search 2 3 exL exD exA 100).map (fun res => res.map fun p => (p.1, p.2 0, p.2 1)) =
    some [(37 / 100, 1, 3), (97 / 100, 1, 2), (137 / 100, 2, 4)] := by
  decide +kernel

/-- Integer unimodular transformations keep the distances. -/
theorem sqDist_congr {n : Nat} (Q Z : Matrix (Fin n) (Fin n) ℝ) (hZ : IsUnit Z.det) (v : Fin n → ℝ) :
    sqDist (Zᵀ * Q * Z) (Zᵀ *ᵥ v) = sqDist Q v := by
  have hZt : IsUnit (Zᵀ).det := by rw [Matrix.det_transpose]; exact hZ
  unfold sqDist
  rw [Matrix.mul_inv_rev, Matrix.mul_inv_rev, Matrix.mulVec_transpose, ← Matrix.dotProduct_mulVec,
    Matrix.mulVec_mulVec, ← Matrix.mulVec_transpose, Matrix.mulVec_mulVec]
  congr 2
  rw [← Matrix.mul_assoc Z, Matrix.mul_nonsing_inv _ hZ, Matrix.one_mul, Matrix.mul_assoc,
    Matrix.nonsing_inv_mul _ hZt, Matrix.mul_one]

theorem round_int (x : Int) : Lambda.round (x : ℝ) = x := by
  have h := Lambda.abs_sub_round (x : ℝ)
  rw [Lambda.round_eq] at h ⊢
  have h2 : |((x - roundZ (x : ℝ) : Int) : ℝ)| ≤ 1 / 2 := by push_cast; exact h
  have h3 : |x - roundZ (x : ℝ)| < 1 := by
    have : ((|x - roundZ (x : ℝ)| : Int) : ℝ) < 1 := by rw [Int.cast_abs]; linarith
    exact_mod_cast this
  have : x - roundZ (x : ℝ) = 0 := by
    rw [abs_lt] at h3; omega
  exact_mod_cast (by omega : roundZ (x : ℝ) = x)

/-- C33 for the whole of `lambda`: for every symmetric positive definite covariance, every float vector whose
entries fit an `int` and every number `m ≥ 2` of candidates such that `m` integer vectors are nearer than
`1e18`, `lambda` ends; the fixed vector is the nearest integer vector to `a` in the metric of `Q⁻¹`, and the
ratio is that of the smallest to the second smallest distance. -/
theorem C33_lambda_partial (n m : Nat) (hn : 0 < n) (hm : 2 ≤ m) (a : Vec ℝ) (Q L0 : Mat ℝ) (D0 : Vec ℝ)
    (hQ : PosDef (toMat n Q)) (ha : ∀ i < n, -2 ^ 31 ≤ a i ∧ a i ≤ 2 ^ 31 - 1)
    (hS : ∃ S : Finset (Fin n → Int), m ≤ S.card ∧ ∀ z ∈ S, distZ (toMat n Q) (toVec n a) z < 10 ^ 18) :
    ∃ fuel0, ∀ fuel, fuel0 ≤ fuel → ∃ z0 z1 zs, Best (toMat n Q) (toVec n a) (z0 :: z1 :: zs) ∧
      lambda n m fuel a Q L0 D0 = some (fun i => (z0 i : ℝ),
        distZ (toMat n Q) (toVec n a) z0 / distZ (toMat n Q) (toVec n a) z1) := by
  -- the integer parts
  set t : Nat → Int := fun i => if 0 ≤ a i then ⌊a i⌋ else ⌈a i⌉ with ht
  have hmodf : modf n a = some (fun i => a i - t i, fun i => (t i : ℝ)) := by
    unfold modf
    rw [if_pos]
    intro i hi
    obtain ⟨h1, h2⟩ := ha i hi
    dsimp only
    split_ifs with h0
    · refine ⟨le_trans (by norm_num) (Int.floor_nonneg.2 h0), ?_⟩
      have : ⌊a i⌋ ≤ 2 ^ 31 - 1 := by
        have := (Int.floor_le (a i)).trans h2
        exact_mod_cast this
      omega
    · refine ⟨?_, lt_of_le_of_lt (Int.ceil_le.2 (by push_cast; exact (not_le.1 h0).le) : ⌈a i⌉ ≤ 0) (by norm_num)⟩
      have := h1.trans (Int.le_ceil (a i))
      exact_mod_cast this
  set ahat : Vec ℝ := fun i => a i - t i with hah
  obtain ⟨f1, hf1⟩ := C32_reduction n hn Q ahat L0 D0 hQ
  obtain ⟨r, hr, ⟨W, hWd, hWZ⟩, hfac, hest, hu1, hup, hpos, -, -⟩ := hf1 f1 le_rfl
  obtain ⟨f2, hf2⟩ := C33_search_partial n m hn (by omega) r.L r.D r.a hpos hu1 hup
  -- more fuel gives the same reduction
  have hmono : ∀ fuel, f1 ≤ fuel → reduction n fuel Q ahat L0 D0 = some r := by
    intro fuel hf
    have hl : ∀ (f : Nat) (k1 : Nat) (s o : Red ℝ), reduceLoop n f k1 s = some o →
        ∀ g, f ≤ g → reduceLoop n g k1 s = some o := by
      intro f
      induction f with
      | zero => intro k1 s o h; simp [reduceLoop] at h
      | succ f ih =>
        intro k1 s o h g hg
        obtain ⟨g', rfl⟩ : ∃ g', g = g' + 1 := ⟨g - 1, by omega⟩
        unfold reduceLoop at h ⊢
        generalize sweep n k1 (n - 1) s = q at h ⊢
        obtain ⟨oo, s'⟩ := q
        cases oo with
        | none => exact h
        | some k => exact ih k s' o h g' (by omega)
    unfold reduction at hr ⊢
    cases hl0 : ltdl n Q L0 D0 with
    | none => rw [hl0] at hr; cases hr
    | some p =>
      rw [hl0] at hr
      simp only [Option.bind_eq_bind, Option.bind_some] at hr ⊢
      exact hl f1 _ _ _ hr fuel hf
  -- the transformation of integer vectors
  have hWu : IsUnit W.det := by rcases hWd with h | h <;> rw [h] <;> simp
  have hZmul : toMat n r.Z * (W⁻¹).map (fun x => (x : ℝ)) = 1 := by
    have h1 : (W * W⁻¹).map (Int.castRingHom ℝ) = 1 := by
      rw [Matrix.mul_nonsing_inv _ hWu]; exact Matrix.map_one _ (by simp) (by simp)
    rw [Matrix.map_mul] at h1
    rw [hWZ]; exact h1
  have hZinv : (toMat n r.Z)⁻¹ = (W⁻¹).map (fun x => (x : ℝ)) := Matrix.inv_eq_right_inv hZmul
  have hZu : IsUnit (toMat n r.Z).det := Matrix.isUnit_det_of_right_inverse hZmul
  have hround : ((toMat n r.Z)⁻¹).map Lambda.round = (W⁻¹).map (fun x => (x : ℝ)) := by
    rw [hZinv]; ext i j; exact round_int _
  set e : (Fin n → Int) → (Fin n → Int) := fun y i => ((W⁻¹)ᵀ *ᵥ y) i + t i with he
  have heback : ∀ y, Wᵀ *ᵥ (fun i => e y i - t i) = y := by
    intro y
    have : (fun i => e y i - t i) = (W⁻¹)ᵀ *ᵥ y := by funext i; rw [he]; ring
    rw [this, Matrix.mulVec_mulVec, ← Matrix.transpose_mul, Matrix.nonsing_inv_mul _ hWu, Matrix.transpose_one,
      Matrix.one_mulVec]
  have heinj : Function.Injective e := by
    intro y y' h
    rw [← heback y, ← heback y', h]
  have hesurj : ∀ x, ∃ y, e y = x := by
    intro x
    refine ⟨Wᵀ *ᵥ (fun i => x i - t i), ?_⟩
    funext i
    rw [he]; dsimp only
    rw [Matrix.mulVec_mulVec, ← Matrix.transpose_mul, Matrix.mul_nonsing_inv _ hWu, Matrix.transpose_one,
      Matrix.one_mulVec]
    ring
  have hcast : ∀ y : Fin n → Int, ((W⁻¹).map (fun x => (x : ℝ)))ᵀ *ᵥ (fun j => (y j : ℝ)) =
      fun i => ((((W⁻¹)ᵀ *ᵥ y) i : Int) : ℝ) := by
    intro y; funext i
    simp only [Matrix.mulVec, dotProduct, Matrix.transpose_apply, Matrix.map_apply]
    push_cast; rfl
  have hdist : ∀ y, distZ ((toMat n r.L)ᵀ * diagonal (toVec n r.D) * toMat n r.L) (toVec n r.a) y =
      distZ (toMat n Q) (toVec n a) (e y) := by
    intro y
    unfold distZ
    rw [hfac, ← sqDist_congr (toMat n Q) (toMat n r.Z) hZu]
    congr 1
    funext i
    have e1 : (fun i => ((e y i : Int) : ℝ) - toVec n a i) =
        fun i => ((fun i => ((((W⁻¹)ᵀ *ᵥ y) i : Int) : ℝ)) - toVec n ahat) i := by
      funext i
      simp only [he, Pi.sub_apply, toVec, hah]; push_cast; ring
    rw [e1, hest]
    have e2 : (toMat n r.Z)ᵀ *ᵥ (fun i => ((((W⁻¹)ᵀ *ᵥ y) i : Int) : ℝ)) = fun j => (y j : ℝ) := by
      rw [← hcast, Matrix.mulVec_mulVec, ← Matrix.transpose_mul, ← hZinv, Matrix.nonsing_inv_mul _ hZu,
        Matrix.transpose_one, Matrix.one_mulVec]
    have e3 := congrFun (Matrix.mulVec_sub (toMat n r.Z)ᵀ (fun i => ((((W⁻¹)ᵀ *ᵥ y) i : Int) : ℝ)) (toVec n ahat)) i
    rw [e2] at e3
    exact e3.symm
  have hbest : ∀ ys, Best ((toMat n r.L)ᵀ * diagonal (toVec n r.D) * toMat n r.L) (toVec n r.a) ys →
      Best (toMat n Q) (toVec n a) (ys.map e) := by
    rintro ys ⟨b1, b2, b3⟩
    refine ⟨b1.map heinj, ?_, ?_⟩
    · rw [List.pairwise_map]
      exact b2.imp fun {x y} h => by rw [← hdist, ← hdist]; exact h
    · intro z hz w hw
      obtain ⟨y, rfl⟩ := hesurj z
      obtain ⟨y', hy', rfl⟩ := List.mem_map.1 hw
      rw [← hdist, ← hdist]
      exact b3 y (fun hc => hz (List.mem_map_of_mem hc)) y' hy'
  refine ⟨max f1 f2, fun fuel hf => ?_⟩
  obtain ⟨res, hres, hlen, hb⟩ := hf2 fuel (le_trans (le_max_right _ _) hf)
  obtain ⟨S, hSc, hSd⟩ := hS
  -- the near vectors, transformed
  classical
  obtain ⟨zs, hzs, hmap⟩ := hb (by
    choose g hg using hesurj
    refine ⟨S.image g, ?_, fun y hy => ?_⟩
    · rw [Finset.card_image_of_injective _ (fun x x' h => by rw [← hg x, ← hg x', h])]; exact hSc
    · obtain ⟨x, hx, rfl⟩ := Finset.mem_image.1 hy
      rw [hdist, hg]; exact hSd x hx)
  have hlenz : zs.length = m := by
    have := congrArg List.length hmap
    rw [List.length_map, List.length_map, hlen] at this; exact this.symm
  match zs, res, hzs, hmap, hlenz, hres with
  | [], _, _, _, h, _ => simp at h; omega
  | [_], _, _, _, h, _ => simp at h; omega
  | y0 :: y1 :: ys, c0 :: c1 :: cs, hzs, hmap, hlenz, hres =>
    simp only [List.map_cons, List.cons.injEq, Prod.mk.injEq] at hmap
    obtain ⟨⟨m1, m2⟩, ⟨m3, -⟩, -⟩ := hmap
    refine ⟨e y0, e y1, ys.map e, hbest _ hzs, ?_⟩
    unfold Lambda.lambda
    rw [hmodf]
    simp only [Option.bind_eq_bind, Option.bind_some]
    rw [hmono fuel (le_trans (le_max_left _ _) hf)]
    simp only [Option.bind_some]
    rw [hres]
    simp only [Option.bind_some]
    congr 1
    refine Prod.ext ?_ ?_
    · funext i
      dsimp only
      rw [hround]
      have : (fun j : Fin n => c0.2 j) = fun j => (y0 j : ℝ) := m2
      rw [this, hcast, he]; push_cast; ring
    · dsimp only
      rw [m1, m3, hdist, hdist]

/-- The hypotheses hold, for example, for one ambiguity of 1/4 with variance 2 and two candidates. -/
example : PosDef (toMat 1 (fun _ _ => (2 : ℝ))) ∧
    ∃ S : Finset (Fin 1 → Int), 2 ≤ S.card ∧
      ∀ z ∈ S, distZ (toMat 1 (fun _ _ => (2 : ℝ))) (toVec 1 fun _ => 1 / 4) z < 10 ^ 18 := by
  have hinv : (toMat 1 (fun _ _ => (2 : ℝ)))⁻¹ = toMat 1 (fun _ _ => (1 / 2 : ℝ)) := by
    apply Matrix.inv_eq_right_inv
    ext i j
    fin_cases i; fin_cases j
    simp [toMat, Matrix.mul_apply]
  refine ⟨⟨by ext i j; rfl, fun x hx => ?_⟩, {fun _ => 0, fun _ => 1}, ?_, fun z hz => ?_⟩
  · have hx0 : x 0 ≠ 0 := fun h => hx (by ext i; fin_cases i; exact h)
    have : 0 < x 0 * x 0 := mul_self_pos.2 hx0
    simp [dotProduct, mulVec, toMat]; linarith
  · rw [Finset.card_pair]
    intro h; simpa using congrFun h 0
  · unfold distZ sqDist
    rw [hinv]
    simp only [Finset.mem_insert, Finset.mem_singleton] at hz
    rcases hz with rfl | rfl <;> norm_num [dotProduct, mulVec, toMat, toVec]

/-- With a single candidate the ratio reads past the end of the distances. -/
theorem C33_one_candidate_violated (n fuel : Nat) (a : Vec ℝ) (Q L0 : Mat ℝ) (D0 : Vec ℝ) :
    lambda n 1 fuel a Q L0 D0 = none := by
  unfold Lambda.lambda
  simp only [Option.bind_eq_bind]
  cases modf n a with
  | none => rfl
  | some p =>
    simp only [Option.bind_some]
    cases reduction n fuel Q p.1 L0 D0 with
    | none => rfl
    | some r =>
      simp only [Option.bind_some]
      unfold search
      cases searchLoop n 1 r.L r.D r.a fuel (searchInit n 1 r.a) with
      | none => rfl
      | some s =>
        have : (List.range 1).insertionSort (fun i j => s.norms i ≤ s.norms j) = [0] := rfl
        simp only [Option.map_some, Option.bind_some, this, List.map_cons, List.map_nil]

/-- An ambiguity of 2^31 cycles or more cannot be converted to `int`. -/
theorem C33_range_violated (n m fuel : Nat) (hn : 0 < n) (a : Vec ℝ) (ha : a 0 = 2 ^ 31) (Q L0 : Mat ℝ) (D0 : Vec ℝ) :
    lambda n m fuel a Q L0 D0 = none := by
  have : modf n a = none := by
    unfold modf
    rw [if_neg]
    intro h
    have := (h 0 hn).2
    dsimp only at this
    rw [ha] at this
    norm_num at this
  unfold Lambda.lambda
  rw [this]; rfl

end Verif.Props.Lambda
