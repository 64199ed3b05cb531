import Verif.Props.EkfGen

/-!
C107: the generated covariance code is the Kalman filter, for every configuration that the generator handles by the guarded
functions (`Props.SymbGuard`), and for the configurations of the project.
-/

namespace Verif.Props.EkfGen

open Verif.Model.Symb Verif.Model.Symb.Blk Verif.Model.EkfGen Verif.Spec.Symb Verif.Spec.EkfGen Verif.Lemmas.Symb
open Verif.Props.Symb

variable {C : Cfg}

/-- No state and no input has exactly one element. -/
def NoOne (C : Cfg) : Prop := (∀ i, C.dim i ≠ .num 1) ∧ ∀ i, C.inp i ≠ .num 1

theorem ne_left {a : Dim} (h : a ≠ .num 1) (b : Dim) : (a, b) ≠ one1 := fun e => h (Prod.mk.inj e).1

/-! ### The symbolic matrices -/

theorem den_ite {t : Prop} [Decidable t] (k : Kind) (r c : ℕ) {a b : Dim} (h : (a, b) ≠ one1) :
    good (if t then symb k r c a b else c0 a b) ∧ (if t then symb k r c a b else c0 a b).shape = (a, b) ∧
      ∀ (N : ℕ) (V : Val N), den V (if t then symb k r c a b else c0 a b) = if t then blockOf V k r c a b else 0 := by
  by_cases ht : t
  · simp only [if_pos ht]
    exact den_symb k r c h
  · simp only [if_neg ht]
    exact den_zero a b

theorem den_stateJac (hC : NoOne C) : Den (stateJac C) C.dim C.dim fun _ V => jx C V := by
  intro r c e h
  obtain rfl := Option.some.inj h
  exact den_ite .dxdx r c (ne_left (hC.1 r) _)

theorem den_inputJac (hC : NoOne C) : Den (inputJac C) C.dim C.inp fun _ V => ju C V := by
  intro r c e h
  obtain rfl := Option.some.inj h
  exact den_ite .dxdu r c (ne_left (hC.1 r) _)

theorem den_covM (hC : NoOne C) (k : Kind) : Den (covM C k) C.dim C.dim fun _ V => covOf C V k := by
  intro r c e h
  obtain rfl := Option.some.inj h
  exact den_symb k r c (ne_left (hC.1 r) _)

theorem den_inputCov (hC : NoOne C) : Den (inputCov C) C.inp C.inp fun _ V => noiseU C V := by
  intro r c e h
  obtain rfl := Option.some.inj h
  exact den_ite .qu r c (ne_left (hC.2 r) _)

theorem den_processCov (hC : NoOne C) : Den (processCov C) C.dim C.dim fun _ V => noiseX C V := by
  intro r c e h
  obtain rfl := Option.some.inj h
  exact den_ite .qx r c (ne_left (hC.1 r) _)

theorem den_identM (hC : NoOne C) : Den (identM C) C.dim C.dim fun _ V => ident C V := by
  intro r c e h
  obtain rfl := Option.some.inj h
  unfold ident
  split_ifs with hrc
  · subst hrc
    refine ⟨good_cI _, rfl, fun N V => ?_⟩
    show _ = Matrix.diagonal (fun i => proj V (C.dim i)) c c
    rw [Matrix.diagonal_apply_eq, den, denName, if_neg (ne_left (hC.1 c) _), show sgn false = 1 from rfl, one_smul]
  · refine ⟨good_c0 _ _, rfl, fun N V => ?_⟩
    show _ = Matrix.diagonal (fun i => proj V (C.dim i)) r c
    rw [den_c0, Matrix.diagonal_apply_ne _ (fun h => hrc h.symm)]

theorem den_dt {m n : ℕ} {dr : Fin m → Dim} {dc : Fin n → Dim} {A : OMat m n} {F : ∀ N : ℕ, Val N → BM N m n}
    (hA : Den A dr dc F) : Den (scaleM dtB A) dr dc fun N V => numOf V .dt • F N V :=
  den_scaleM (den_scalar_symb .dt).1 (den_scalar_symb .dt).2.1 (x := fun _ V => numOf V .dt) (den_scalar_symb .dt).2.2 hA

theorem den_half {m n : ℕ} {dr : Fin m → Dim} {dc : Fin n → Dim} {A : OMat m n} {F : ∀ N : ℕ, Val N → BM N m n}
    (hA : Den A dr dc F) : Den (scaleM halfB A) dr dc fun N V => numOf V .half • F N V :=
  den_scaleM (den_scalar_symb .half).1 (den_scalar_symb .half).2.1 (x := fun _ V => numOf V .half)
    (den_scalar_symb .half).2.2 hA

/-- What `Abar` and `Bbar` mean. -/
noncomputable def abarF (C : Cfg) : ∀ N : ℕ, Val N → BM N (C.n + 1) (C.n + 1) := fun _ V =>
  ident C V + numOf V .dt • jx C V + numOf V .half • numOf V .dt • numOf V .dt • (jx C V * jx C V)
noncomputable def bbarF (C : Cfg) : ∀ N : ℕ, Val N → BM N (C.n + 1) (C.m + 1) := fun _ V =>
  numOf V .dt • ((ident C V + numOf V .half • numOf V .dt • jx C V) * ju C V)

theorem den_abarM (hC : NoOne C) : Den (abarM C) C.dim C.dim (abarF C) :=
  den_addM (den_addM (den_identM hC) (den_dt (den_stateJac hC)))
    (den_half (den_dt (den_dt (den_mulM (fun r _ => ne_left (hC.1 r) _) (den_stateJac hC) (den_stateJac hC)))))

theorem den_bbarM (hC : NoOne C) : Den (bbarM C) C.dim C.inp (bbarF C) :=
  den_dt (den_mulM (fun r _ => ne_left (hC.1 r) _) (den_addM (den_identM hC) (den_half (den_dt (den_stateJac hC))))
    (den_inputJac hC))

/-! ### What they depend on -/

section off

variable {N : ℕ} {k : Kind} {V W : Val N} (h : Off k V W)

include h

theorem off_jx (hk : Kind.dxdx ≠ k) : jx C V = jx C W := by
  funext r c
  unfold jx
  rw [h.blockOf hk]

theorem off_ju (hk : Kind.dxdu ≠ k) : ju C V = ju C W := by
  funext r c
  unfold ju
  rw [h.blockOf hk]

theorem off_cov {j : Kind} (hk : j ≠ k) : covOf C V j = covOf C W j := by
  funext r c
  unfold covOf
  rw [h.blockOf hk]

theorem off_noiseU (hk : Kind.qu ≠ k) : noiseU C V = noiseU C W := by
  funext r c
  unfold noiseU
  rw [h.blockOf hk]

theorem off_noiseX (hk : Kind.qx ≠ k) : noiseX C V = noiseX C W := by
  funext r c
  unfold noiseX
  rw [h.blockOf hk]

theorem off_ident : ident C V = ident C W := by
  unfold ident
  congr 1
  funext i
  exact h.proj _

theorem off_jz {D : MCfg C} (hk : Kind.dzdx ≠ k) : jz V D = jz W D := by
  funext r c
  unfold jz
  rw [h.blockOf hk]

/-- A committed matrix depends on its own symbols only. -/
theorem off_newF {m n : ℕ} {j : Kind} (hk : j ≠ k) {X : OMat m n} {dr : Fin m → Dim} {dc : Fin n → Dim}
    {F : ∀ N : ℕ, Val N → BM N m n} (hX : Den X dr dc F) (hne : ∀ r c, (dr r, dc c) ≠ one1) :
    newF j X N V = newF j X N W := by
  funext r c
  unfold newF
  cases hx : X r c with
  | none => rfl
  | some e =>
    obtain ⟨e1, e2, -⟩ := hX r c e hx
    have hs : (e.rows, e.cols) ≠ one1 := by
      have := hne r c
      rw [← e2] at this
      exact this
    show den V (newBlk j r c e) = den W (newBlk j r c e)
    unfold newBlk
    split_ifs with h0 h1
    · rw [den_c0, den_c0]
    · rw [den, den, denName, denName, if_neg hs, if_neg hs, h.proj]
    · rw [(den_symb j r c hs).2.2, (den_symb j r c hs).2.2, h.blockOf hk]

end off

/-! ### Propagation -/

theorem half_sq {N m n : ℕ} (x h : ℝ) (hh : h = 1 / 2) (X : BM N m n) : h • x • x • X = (x ^ 2 / 2) • X := by
  rw [smul_smul, smul_smul, hh]
  congr 1
  ring

theorem ident_ju {N : ℕ} (V : Val N) : ident C V * ju C V = ju C V := by
  funext r c
  unfold ident
  rw [Matrix.diagonal_mul]
  unfold ju
  split_ifs
  · exact (blockOf_fit V .dxdu r c _ _).1
  · exact mul_zero _

theorem abarF_eq {N : ℕ} (V : Val N) (hh : numOf V .half = 1 / 2) : abarF C N V = transition C V := by
  unfold abarF transition
  rw [half_sq _ _ hh]

theorem bbarF_eq {N : ℕ} (V : Val N) (hh : numOf V .half = 1 / 2) : bbarF C N V = inputGain C V := by
  unfold bbarF inputGain
  rw [Matrix.add_mul, ident_ju, smul_add, Matrix.smul_mul, Matrix.smul_mul, smul_comm (numOf V .dt) (numOf V .half),
    half_sq _ _ hh]

/-- The generated propagation computes the predicted covariance, block by block on and above the diagonal. -/
theorem C107_propagate {q f : ℕ} (hC : NoOne C) {p : List Stmt} (h : propagate C (guarded q) f = some p) :
    propagate C (code q) f = some p ∧ ∀ (N : ℕ) (V : Val N), numOf V .half = 1 / 2 →
      ∀ r c : Fin (C.n + 1), r ≤ c → covOf C (run V p) .covOut r c = predicted C V r c := by
  unfold propagate at h
  simp only [Option.bind_eq_bind, Option.bind_eq_some_iff, Option.some.injEq] at h
  obtain ⟨s1, h1, s2, h2, s3, h3, s4, h4, rfl⟩ := h
  have hxx : ∀ r c : Fin (C.n + 1), (C.dim r, C.dim c) ≠ one1 := fun r _ => ne_left (hC.1 r) _
  have hxu : ∀ (r : Fin (C.n + 1)) (c : Fin (C.m + 1)), (C.dim r, C.inp c) ≠ one1 := fun r _ => ne_left (hC.1 r) _
  have dA := den_newM (k := .abar) (den_abarM hC) hxx
  have dB := den_newM (k := .bbar) (den_bbarM hC) hxu
  have dP : Den (poutM C (newM .abar (abarM C)) (newM .bbar (bbarM C))) C.dim C.dim fun N V =>
      newF .abar (abarM C) N V * covOf C V .cov * tb (newF .abar (abarM C) N V) +
        newF .bbar (bbarM C) N V * noiseU C V * tb (newF .bbar (bbarM C) N V) :=
    den_addM (den_mulM hxx (den_mulM hxx dA (den_covM hC .cov)) (den_trM dA))
      (den_mulM hxx (den_mulM hxu dB (den_inputCov hC)) (den_trM dB))
  obtain ⟨k1, r1⟩ := commitNew_ok (den_abarM hC) hxx (fun N V W o => by
    unfold abarF
    rw [off_ident o, off_jx o (by decide), o.numOf (by decide), o.numOf (by decide)]) _ (places_nodup _ _) s1 h1
  obtain ⟨k2, r2⟩ := commitNew_ok (den_bbarM hC) hxu (fun N V W o => by
    unfold bbarF
    rw [off_ident o, off_jx o (by decide), off_ju o (by decide), o.numOf (by decide), o.numOf (by decide)]) _
    (places_nodup _ _) s2 h2
  obtain ⟨k3, r3⟩ := commitTo_ok (k := .covOut) (fun r c => rfl) dP hxx (fun N V W o => by
    rw [off_newF o (by decide) (den_abarM hC) hxx, off_newF o (by decide) (den_bbarM hC) hxu, off_cov o (by decide),
      off_noiseU o (by decide)]) _ (upper_nodup _ _) s3 h3
  obtain ⟨k4, r4⟩ := adjust_ok (k := .covOut) (fun r c t ht _ => (Option.some.inj ht).symm) (den_processCov hC) hxx
    (fun N V W o => off_noiseX o (by decide)) _ (upper_nodup _ _) s4 h4
  refine ⟨?_, fun N V hh r c hrc => ?_⟩
  · unfold propagate
    simp only [Option.bind_eq_bind, Option.bind_eq_some_iff, Option.some.injEq]
    exact ⟨s1, k1, s2, k2, s3, k3, s4, k4, rfl⟩
  · rw [run_append, run_append, run_append]
    obtain ⟨a1, -, a3⟩ := r1 N V
    generalize hV1 : run V s1 = V1 at a1 a3 ⊢
    obtain ⟨b1, -, b3⟩ := r2 N V1
    generalize hV2 : run V1 s2 = V2 at b1 b3 ⊢
    obtain ⟨c1, -, c3⟩ := r3 N V2
    generalize hV3 : run V2 s3 = V3 at c1 c3 ⊢
    obtain ⟨d1, -, d3⟩ := r4 N V3
    have hA : newF .abar (abarM C) N V2 = transition C V := by
      rw [← off_newF b1 (by decide) (den_abarM hC) hxx, ← abarF_eq V hh]
      funext r c
      exact a3 (r, c) (mem_places r c)
    have hB : newF .bbar (bbarM C) N V2 = inputGain C V := by
      rw [← bbarF_eq V hh]
      have e : bbarF C N V = bbarF C N V1 := by
        unfold bbarF
        rw [off_ident a1, off_jx a1 (by decide), off_ju a1 (by decide), a1.numOf (by decide), a1.numOf (by decide)]
      rw [e]
      funext r c
      exact b3 (r, c) (mem_places r c)
    have hP : covOf C V2 .cov = covOf C V .cov := by rw [← off_cov b1 (by decide), ← off_cov a1 (by decide)]
    have hQ : noiseU C V2 = noiseU C V := by rw [← off_noiseU b1 (by decide), ← off_noiseU a1 (by decide)]
    have hX : noiseX C V3 = noiseX C V := by
      rw [← off_noiseX c1 (by decide), ← off_noiseX b1 (by decide), ← off_noiseX a1 (by decide)]
    have h5 := d3 (r, c) (mem_upper hrc)
    have h6 := c3 (r, c) (mem_upper hrc)
    simp only [hA, hB, hP, hQ, hX, Bool.false_eq_true, if_false] at h5 h6
    show blockOf _ .covOut r c _ _ = _
    rw [h5, h6]
    rfl

/-! ### Measurements -/

theorem den_measJac {D : MCfg C} (hD : D.dim ≠ .num 1) : Den (measJac D) (fun _ => D.dim) C.dim fun _ V => jz V D := by
  intro r c e h
  obtain rfl := Option.some.inj h
  exact den_ite .dzdx r c (ne_left hD _)

theorem den_one {m n : ℕ} {dr : Fin m → Dim} {dc : Fin n → Dim} (k : Kind) (hne : ∀ r c, (dr r, dc c) ≠ one1) :
    Den (fun r c => some (symb k r c (dr r) (dc c))) dr dc fun _ V r c => blockOf V k r c (dr r) (dc c) := by
  intro r c e h
  obtain rfl := Option.some.inj h
  exact den_symb k r c (hne r c)

theorem single_of {N : ℕ} (f : Fin 1 → Fin 1 → M N) : f = single (f 0 0) := by
  funext r c
  rw [Subsingleton.elim r 0, Subsingleton.elim c 0]
  rfl

theorem tb_tb {N m n : ℕ} (X : BM N m n) : tb (tb X) = X := rfl

theorem tb_mul {N m k n : ℕ} (X : BM N m k) (Y : BM N k n) : tb (X * Y) = tb Y * tb X := by
  funext r c
  show (∑ i, X c i * Y i r).transpose = ∑ i, (Y i r).transpose * (X c i).transpose
  rw [Matrix.transpose_sum]
  exact Finset.sum_congr rfl fun i _ => Matrix.transpose_mul _ _

theorem inv_comm {N : ℕ} {T Q : M N} (hc : T * Q = Q * T) : T⁻¹ * Q = Q * T⁻¹ := by
  by_cases hdet : IsUnit T.det
  · calc T⁻¹ * Q = T⁻¹ * Q * (T * T⁻¹) := by rw [Matrix.mul_nonsing_inv T hdet, mul_one]
      _ = T⁻¹ * (Q * T) * T⁻¹ := by rw [mul_assoc, mul_assoc, mul_assoc]
      _ = T⁻¹ * T * (Q * T⁻¹) := by rw [← hc, ← mul_assoc, ← mul_assoc]
      _ = Q * T⁻¹ := by rw [Matrix.nonsing_inv_mul T hdet, one_mul]
  · rw [Matrix.nonsing_inv_apply_not_isUnit T hdet, zero_mul, mul_zero]

theorem proj_comm {N : ℕ} (V : Val N) {d : Dim} {S : M N} (hS : PFit V d d S) :
    (S + (1 - proj V d)) * proj V d = proj V d * (S + (1 - proj V d)) := by
  rw [add_mul, mul_add, hS.1, hS.2, sub_mul, mul_sub, one_mul, mul_one]

theorem blockInv_fit {N : ℕ} (V : Val N) {d : Dim} {S : M N} (hS : PFit V d d S) : PFit V d d (blockInv V d S) := by
  unfold blockInv
  exact ⟨by rw [inv_comm (proj_comm V hS), ← mul_assoc, proj_idem], by rw [mul_assoc, proj_idem]⟩

/-- `blockInv` is the inverse of the block. -/
theorem blockInv_eq {N : ℕ} (V : Val N) {d : Dim} {S T : M N} (hS : PFit V d d S) (hT : PFit V d d T)
    (h : S * T = proj V d) : blockInv V d S = T := by
  have h1 : (S + (1 - proj V d)) * (T + (1 - proj V d)) = 1 := by
    rw [add_mul, mul_add, mul_add, h, mul_sub, mul_one, hS.2, sub_self, add_zero, sub_mul, one_mul, hT.1, sub_self, zero_add,
      sub_mul, one_mul, mul_sub, mul_one, proj_idem, sub_self, sub_zero]
    abel
  unfold blockInv
  rw [Matrix.inv_eq_right_inv h1, add_mul, hT.2, sub_mul, one_mul, proj_idem, sub_self, add_zero]

theorem target_newBlk {k : Kind} {r c : ℕ} {e : Blk} (h : (target (newBlk k r c e)).isSome = true) :
    newBlk k r c e = symb k r c e.rows e.cols := by
  unfold newBlk at h ⊢
  split_ifs at h ⊢ with h0 h1
  · simp [target, c0] at h
  · simp [target] at h
  · rfl

theorem off_hphtF {N : ℕ} {k : Kind} {V W : Val N} (o : Off k V W) {D : MCfg C} (hk : Kind.dzdx ≠ k) (hk' : Kind.pht ≠ k)
    {dc : Fin 1 → Dim} {F : ∀ N : ℕ, Val N → BM N (C.n + 1) 1} (hX : Den (phtM D) C.dim dc F)
    (hne : ∀ r c, (C.dim r, dc c) ≠ one1) :
    jz V D * newF .pht (phtM D) N V = jz W D * newF .pht (phtM D) N W := by
  rw [off_jz o hk, off_newF o hk' hX hne]

/-- The matrix of one block that a symbol names. -/
def oneOf {N : ℕ} (V : Val N) (k : Kind) (a b : Dim) : BM N 1 1 := fun r c => blockOf V k r c a b

theorem oneOf_eq {N : ℕ} (V : Val N) (k : Kind) (a b : Dim) : oneOf V k a b = single (blockOf V k 0 0 a b) :=
  single_of _

theorem off_oneOf {N : ℕ} {k j : Kind} {V W : Val N} (o : Off k V W) (h : j ≠ k) (a b : Dim) :
    oneOf V j a b = oneOf W j a b := by
  rw [oneOf_eq, oneOf_eq, o.blockOf h]

/-- The generated update computes the correction and the covariance of the Kalman filter. -/
theorem C107_update {q f : ℕ} (hC : NoOne C) {D : MCfg C} (hD : D.dim ≠ .num 1) {p : List Stmt}
    (h : measUpdate (guarded q) f D = some p) :
    measUpdate (code q) f D = some p ∧ ∀ (N : ℕ) (V : Val N), Symmetric (C := C) V →
      (∀ r : Fin (C.n + 1), blockOf (run V p) .dx r 0 (C.dim r) (.num 1) = correction V D r 0) ∧
      ∀ r c : Fin (C.n + 1), r ≤ c → covOf C (run V p) .cov r c = updated V D r c := by
  unfold measUpdate at h
  simp only [Option.bind_eq_bind, Option.bind_eq_some_iff, Option.some.injEq] at h
  obtain ⟨s1, h1, s2, h2, s3, h3, s4, h4, s5, h5, s6, h6, s7, h7, rfl⟩ := h
  have hxx : ∀ r c : Fin (C.n + 1), (C.dim r, C.dim c) ≠ one1 := fun r _ => ne_left (hC.1 r) _
  have hxz : ∀ (r : Fin (C.n + 1)) (_ : Fin 1), (C.dim r, D.dim) ≠ one1 := fun r _ => ne_left (hC.1 r) _
  have hx1 : ∀ (r : Fin (C.n + 1)) (_ : Fin 1), (C.dim r, Dim.num 1) ≠ one1 := fun r _ => ne_left (hC.1 r) _
  have hzz : ∀ _ _ : Fin 1, (D.dim, D.dim) ≠ one1 := fun _ _ => ne_left hD _
  have hz1 : ∀ _ _ : Fin 1, (D.dim, Dim.num 1) ≠ one1 := fun _ _ => ne_left hD _
  have d1 : Den (phtM D) C.dim (fun _ => D.dim) fun _ V => covOf C V .cov * tb (jz V D) :=
    den_mulM hxz (den_covM hC .cov) (den_trM (den_measJac hD))
  have n1 := den_newM (k := .pht) d1 hxz
  have d2 : Den (hphtM D) (fun _ => D.dim) (fun _ => D.dim) fun N V => jz V D * newF .pht (phtM D) N V :=
    den_mulM hzz (den_measJac hD) n1
  have dn : Den (noiseM D) (fun _ => D.dim) (fun _ => D.dim) fun _ V => oneOf V .noise D.dim D.dim :=
    den_one .noise hzz
  have di : Den (sinvM D) (fun _ => D.dim) (fun _ => D.dim) fun _ V => oneOf V .sinv D.dim D.dim :=
    den_one .sinv hzz
  have dr : Den (resM D) (fun _ => D.dim) (fun _ => Dim.num 1) fun _ V => oneOf V .res D.dim (.num 1) :=
    den_one .res hz1
  have d5 : Den (gainM D) C.dim (fun _ => D.dim) fun N V =>
      newF .pht (phtM D) N V * oneOf V .sinv D.dim D.dim := den_mulM hxz n1 di
  have n5 := den_newM (k := .gain) d5 hxz
  have d6 : Den (corrM D) C.dim (fun _ => Dim.num 1) fun N V =>
      newF .gain (gainM D) N V * oneOf V .res D.dim (.num 1) := den_mulM hx1 n5 dr
  have d7 : Den (lessM D) C.dim C.dim fun N V => newF .gain (gainM D) N V * tb (newF .pht (phtM D) N V) :=
    den_mulM hxx n5 (den_trM n1)
  obtain ⟨k1, r1⟩ := commitNew_ok d1 hxz (fun N V W o => by rw [off_cov o (by decide), off_jz o (by decide)]) _
    (places_nodup _ _) s1 h1
  obtain ⟨k2, r2⟩ := commitNew_ok d2 hzz (fun N V W o => off_hphtF o (by decide) (by decide) d1 hxz) _
    (places_nodup _ _) s2 h2
  obtain ⟨k3, r3⟩ := adjust_ok (k := .hpht) (fun r c t ht hs => by
      unfold newM at ht
      simp only [Option.bind_eq_bind, Option.bind_eq_some_iff, Option.some.injEq] at ht
      obtain ⟨e, ht1, rfl⟩ := ht
      obtain ⟨-, e2, -⟩ := d2 r c e ht1
      rw [target_newBlk hs]
      unfold Blk.rows Blk.cols
      rw [e2]) dn hzz (fun N V W o => off_oneOf o (by decide) _ _) _ (upper_nodup _ _) s3 h3
  obtain ⟨k5, r5⟩ := commitNew_ok d5 hxz (fun N V W o => by
    rw [off_newF o (by decide) d1 hxz]
    rw [off_oneOf o (by decide)]) _ (places_nodup _ _) s5 h5
  obtain ⟨k6, r6⟩ := commitTo_ok (k := .dx) (fun r c => rfl) d6 hx1 (fun N V W o => by
    rw [off_newF o (by decide) d5 hxz]
    rw [off_oneOf o (by decide)]) _ (places_nodup _ _) s6 h6
  obtain ⟨k7, r7⟩ := adjust_ok (k := .cov) (fun r c t ht _ => (Option.some.inj ht).symm) d7 hxx (fun N V W o => by
    rw [off_newF o (by decide) d5 hxz, off_newF o (by decide) d1 hxz]) _ (upper_nodup _ _) s7 h7
  -- the block that is inverted
  obtain ⟨e, he, hes, hn⟩ : ∃ e, hphtM D 0 0 = some e ∧ e.shape = (D.dim, D.dim) ∧
      newBlk .hpht 0 0 e = symb .hpht 0 0 D.dim D.dim := by
    rw [show upper 1 1 = [((0 : Fin 1), (0 : Fin 1))] from rfl, adjust] at h3
    simp only [Option.bind_eq_bind, Option.bind_eq_some_iff] at h3
    obtain ⟨x, hx, _, -, h3⟩ := h3
    obtain rfl := Option.some.inj hx
    rw [if_neg (by simp [symb, isZero])] at h3
    simp only [Option.bind_eq_some_iff] at h3
    obtain ⟨t, ht, z, hz, -⟩ := h3
    unfold newM at ht
    simp only [Option.bind_eq_bind, Option.bind_eq_some_iff, Option.some.injEq] at ht
    obtain ⟨e, ht1, rfl⟩ := ht
    obtain ⟨-, e2, -⟩ := d2 0 0 e ht1
    refine ⟨e, ht1, e2, ?_⟩
    have := target_newBlk (k := .hpht) (r := ((0 : Fin 1) : ℕ)) (c := ((0 : Fin 1) : ℕ)) (e := e) (by rw [hz]; rfl)
    unfold Blk.rows Blk.cols at this
    rw [e2] at this
    exact this
  unfold invert newM at h4
  simp only [Option.bind_eq_bind, Option.bind_eq_some_iff, Option.some.injEq] at h4
  obtain ⟨_, ⟨_, he', rfl⟩, h4⟩ := h4
  rw [he, Option.some.injEq] at he'
  subst he'
  have h4' : s4 = [.inv (sy .sinv 0 0) D.dim (symb .hpht 0 0 D.dim D.dim)] := by
    rw [← h4, ← hn]
    rfl
  subst h4'
  refine ⟨?_, fun N V hsym => ?_⟩
  · unfold measUpdate
    simp only [Option.bind_eq_bind, Option.bind_eq_some_iff, Option.some.injEq]
    refine ⟨s1, k1, s2, k2, s3, k3, _, ?_, s5, k5, s6, k6, s7, k7, rfl⟩
    unfold invert newM
    simp only [Option.bind_eq_bind, Option.bind_eq_some_iff, Option.some.injEq]
    exact ⟨_, ⟨e, he, rfl⟩, h4⟩
  · rw [run_append, run_append, run_append, run_append, run_append, run_append, run_cons, run_nil]
    obtain ⟨a1, -, a3⟩ := r1 N V
    generalize run V s1 = V1 at a1 a3 ⊢
    obtain ⟨b1, -, b3⟩ := r2 N V1
    generalize run V1 s2 = V2 at b1 b3 ⊢
    obtain ⟨c1, -, c3⟩ := r3 N V2
    generalize run V2 s3 = V3 at c1 c3 ⊢
    have o4 : Off .sinv V3 (exec V3 (.inv (sy .sinv 0 0) D.dim (symb .hpht 0 0 D.dim D.dim))) := by
      rw [exec]
      exact put_off V3 .sinv 0 0 _
    have v4 : ∀ a b, (exec V3 (.inv (sy .sinv 0 0) D.dim (symb .hpht 0 0 D.dim D.dim))).mat (sy .sinv 0 0) a b =
        blockInv V3 D.dim (blockOf V3 .hpht 0 0 D.dim D.dim) := by
      intro a b
      rw [exec, put_same, (den_symb .hpht 0 0 (hzz 0 0)).2.2]
    generalize exec V3 (.inv (sy .sinv 0 0) D.dim (symb .hpht 0 0 D.dim D.dim)) = V4 at o4 v4 ⊢
    obtain ⟨e1, -, e3⟩ := r5 N V4
    generalize run V4 s5 = V5 at e1 e3 ⊢
    obtain ⟨f1, -, f3⟩ := r6 N V5
    generalize run V5 s6 = V6 at f1 f3 ⊢
    obtain ⟨g1, -, g3⟩ := r7 N V6
    -- values
    have w1 : newF .pht (phtM D) N V1 = covOf C V .cov * tb (jz V D) := by
      funext r c
      exact a3 (r, c) (mem_places r c)
    have w2 : newF .pht (phtM D) N V4 = covOf C V .cov * tb (jz V D) := by
      rw [← off_newF o4 (by decide) d1 hxz, ← off_newF c1 (by decide) d1 hxz, ← off_newF b1 (by decide) d1 hxz, w1]
    have wS : blockOf V3 .hpht 0 0 D.dim D.dim = innovation V D := by
      have x1 := c3 (0, 0) (mem_upper (le_refl _))
      simp only [Bool.false_eq_true, if_false] at x1
      have x2 := b3 (0, 0) (mem_places 0 0)
      simp only [w1] at x2
      have x3 : newF .hpht (hphtM D) N V2 0 0 = blockOf V2 .hpht 0 0 D.dim D.dim := by
        unfold newF
        rw [he]
        show den V2 (newBlk .hpht 0 0 e) = _
        rw [hn, (den_symb .hpht 0 0 (hzz 0 0)).2.2]
      change blockOf V3 .hpht 0 0 D.dim D.dim = blockOf V2 .hpht 0 0 D.dim D.dim + blockOf V2 .noise 0 0 D.dim D.dim at x1
      rw [x1, ← x3, x2, ← off_jz a1 (by decide), ← b1.blockOf (by decide), ← a1.blockOf (by decide)]
      unfold innovation
      rw [Matrix.mul_assoc]
    have hfit : PFit V3 D.dim D.dim (innovation V D) := by
      rw [← wS]
      exact blockOf_fit _ _ _ _ _ _
    have hbi : blockInv V3 D.dim (innovation V D) = blockInv V D.dim (innovation V D) := by
      unfold blockInv
      rw [← c1.proj, ← b1.proj, ← a1.proj]
    have wI : oneOf V4 .sinv D.dim D.dim =
        single (blockInv V D.dim (innovation V D)) := by
      rw [oneOf_eq, blockOf, v4, wS, ← o4.proj, proj_fit (blockInv_fit V3 hfit), hbi]
    have w5 : newF .gain (gainM D) N V5 = gain V D := by
      unfold gain
      rw [← wI, ← w2]
      funext r c
      exact e3 (r, c) (mem_places r c)
    have wR : oneOf V5 .res D.dim (.num 1) =
        single (blockOf V .res 0 0 D.dim (.num 1)) := by
      rw [oneOf_eq, ← e1.blockOf (by decide), ← o4.blockOf (by decide), ← c1.blockOf (by decide), ← b1.blockOf (by decide),
        ← a1.blockOf (by decide)]
    refine ⟨fun r => ?_, fun r c hrc => ?_⟩
    · have x := f3 (r, 0) (mem_places r 0)
      rw [wR, w5] at x
      rw [← g1.blockOf (by decide)]
      exact x
    · have x := g3 (r, c) (mem_upper hrc)
      have y1 : newF .gain (gainM D) N V6 = gain V D := by rw [← off_newF f1 (by decide) d5 hxz, w5]
      have y2 : newF .pht (phtM D) N V6 = covOf C V .cov * tb (jz V D) := by
        rw [← off_newF f1 (by decide) d1 hxz, ← off_newF e1 (by decide) d1 hxz, w2]
      have y3 : blockOf V6 .cov r c (C.dim r) (C.dim c) = covOf C V .cov r c := by
        rw [← f1.blockOf (by decide), ← e1.blockOf (by decide), ← o4.blockOf (by decide), ← c1.blockOf (by decide),
          ← b1.blockOf (by decide), ← a1.blockOf (by decide)]
        rfl
      rw [y1, y2] at x
      show blockOf _ .cov r c _ _ = _
      rw [x, if_pos rfl]
      show blockOf V6 .cov r c (C.dim r) (C.dim c) - _ = _
      rw [y3]
      unfold updated
      rw [tb_mul, tb_tb, hsym, ← Matrix.mul_assoc]
      rfl

end Verif.Props.EkfGen
