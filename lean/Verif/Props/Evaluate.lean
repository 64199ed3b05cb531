import Verif.Lemmas.Evaluate
import Verif.Props.PoseError

/-!
# C138: `Evaluate` of the factors writes what a solver asks for, and nothing else
-/

namespace Verif.Props.Evaluate

open Verif.Model.Lie Verif.Model.Ekf Verif.Model.Factor Verif.Model.Imu Verif.Model.Evaluate Verif.QuatMem
  Verif.Props.DQuat Verif.Props.PoseError Verif.Spec.Evaluate Verif.Lemmas.Evaluate Matrix

/-- A vector as a column, which is a matrix of one column row by row. -/
def col {n : ℕ} (v : Fin n → ℝ) : Matrix (Fin n) (Fin 1) ℝ := of fun i _ => v i
/-- A vector as a row. -/
def row {n : ℕ} (v : Fin n → ℝ) : Matrix (Fin 1) (Fin n) ℝ := of fun _ j => v j

/-- All statements of a list stay in their block. -/
local macro "plains" : tactic => `(tactic| (
  simp only [List.forall_mem_cons]
  repeat' first
    | exact plain_st _ _ _ _ _ _ _ _ _ (by decide) (by decide)
    | exact fun _ h => absurd h List.not_mem_nil
    | refine ⟨?_, ?_⟩))

/-- `dGenDParam` and `dParamDGen` with the eight parameters in the order of the memory. -/
def gen8 (T : DQuat) : Matrix (Fin 3 ⊕ Fin 3) (Fin 8) ℝ :=
  T.dGenDParam.submatrix id (finSumFinEquiv (m := 4) (n := 4)).symm
noncomputable def par8 (T : DQuat) : Matrix (Fin 8) (Fin 3 ⊕ Fin 3) ℝ :=
  T.dParamDGen.submatrix (finSumFinEquiv (m := 4) (n := 4)).symm id

theorem eight_eq (j : Fin 8) : eight j.val = (finSumFinEquiv (m := 4) (n := 4)).symm j := by
  revert j; decide

theorem six_eq (j : Fin 6) : six j.val = (finSumFinEquiv (m := 3) (n := 3)).symm j := by
  revert j; decide

/-- What the solver makes of a Jacobian with respect to the eight parameters of a pose: the Jacobian with respect to the six
coordinates of an error of the pose. -/
theorem C138_local {n : ℕ} (J : Matrix (Fin n) (Fin 3 ⊕ Fin 3) ℝ) (T : DQuat) (hT : UnitD T) : J * gen8 T * par8 T = J := by
  rw [Matrix.mul_assoc, gen8, par8, submatrix_mul_equiv, (Verif.Props.DQuat.C47_tangent T.r T hT.1 hT).2,
    submatrix_id_id, Matrix.mul_one]

/-! ## GnssDynamics -/

theorem dynSize_eq : dynSize = szOf 3 [6, 6, 3, 3] := by
  funext g
  match g with
  | none => rfl
  | some 0 => rfl
  | some 1 => rfl
  | some 2 => rfl
  | some 3 => rfl
  | some (n + 4) => simp [dynSize, szOf]

/-- The segments read by `GnssDynamics`. -/
def dynIns (o : DynObj) (p : Fin 4 → ℕ) : List Seg := [⟨o.xi, 3⟩, ⟨p 0, 2⟩, ⟨p 1, 2⟩, ⟨p 2, 1⟩, ⟨p 3, 1⟩]

theorem dyn_read {o : DynObj} {p : Fin 4 → ℕ} {m m' : Mem}
    (h : ∀ s ∈ dynIns o p, ∀ y, s.has y → m' y = m y) : o.read p m' = o.read p m := by
  have e : ∀ s ∈ dynIns o p, ∀ i < s.n, m' (s.a + i) = m (s.a + i) :=
    fun s hs i hi => h s hs _ ⟨by omega, by omega⟩
  simp only [dynIns, List.forall_mem_cons] at e
  obtain ⟨e0, e1, e2, e3, e4, -⟩ := e
  unfold DynObj.read
  rw [rdV_congr e0, rdV_congr e1, rdV_congr e2, rdV_congr e3, rdV_congr e4]

/-- What the maps of `GnssDynamics` hold at the end. -/
noncomputable def dynV (x : DynX) : Option ℕ → ℕ → ℝ
  | none => flat (col (x.f.residual x.c1 x.c2 (x.s1 0) (x.s2 0)))
  | some 0 => flat x.f.jacClk1
  | some 1 => flat x.f.jacClk2
  | some 2 => flat (col x.f.jacSw1)
  | some 3 => flat (col x.f.jacSw2)
  | some _ => fun _ => 0

/-- `GnssDynamics`: whatever is asked for, residual and Jacobians are there row by row, and nothing else changes. -/
theorem C138_dynamics (o : DynObj) (p : Fin 4 → ℕ) (res : ℕ) (jac : Option (ℕ → Option ℕ)) (m : Mem) (x : DynX)
    (hx : o.read p m = some x) (hr : Ready m (dynIns o p) (blocks ⟨res, 3⟩ jac [6, 6, 3, 3])) :
    ∃ m', o.evaluate p res jac m = some m' ∧ RowMajor m' res (col (x.f.residual x.c1 x.c2 (x.s1 0) (x.s2 0))) ∧
      Asked m' jac 0 x.f.jacClk1 ∧ Asked m' jac 1 x.f.jacClk2 ∧ Asked m' jac 2 (col x.f.jacSw1) ∧
      Asked m' jac 3 (col x.f.jacSw2) ∧ Only m m' (blocks ⟨res, 3⟩ jac [6, 6, 3, 3]) := by
  obtain ⟨m', h1, h2, h3, h4⟩ := eval_spec (o.read p) (dynIns o p) x 3 [6, 6, 3, 3] res jac dynStmts m hr
    (fun m' hm' => (dyn_read hm').trans hx) (dynV x) (by
      intro g a hg ha
      match g with
      | none =>
        refine run_matrix (r := 3) (c := 1) rfl [_, _, _] ?_ m a ha _ ?_
        · plains
        · intro i j
          fin_cases i <;> fin_cases j <;>
            simp [overs, over, valOf, st, Stmt.has, col, ofVec, Dyn.jacClk1, Dyn.jacClk2, Dyn.jacSw1, Dyn.jacSw2]
      | some 0 =>
        refine run_matrix (r := 3) (c := 2) rfl [_, _, _] ?_ m a ha _ ?_
        · plains
        · intro i j
          fin_cases i <;> fin_cases j <;>
            simp [overs, over, valOf, st, Stmt.has, col, ofVec, Dyn.jacClk1, Dyn.jacClk2, Dyn.jacSw1, Dyn.jacSw2]
      | some 1 =>
        refine run_matrix (r := 3) (c := 2) rfl [_, _, _] ?_ m a ha _ ?_
        · plains
        · intro i j
          fin_cases i <;> fin_cases j <;>
            simp [overs, over, valOf, st, Stmt.has, col, ofVec, Dyn.jacClk1, Dyn.jacClk2, Dyn.jacSw1, Dyn.jacSw2]
      | some 2 =>
        refine run_matrix (r := 3) (c := 1) rfl [_, _, _] ?_ m a ha _ ?_
        · plains
        · intro i j
          fin_cases i <;> fin_cases j <;>
            simp [overs, over, valOf, st, Stmt.has, col, ofVec, Dyn.jacClk1, Dyn.jacClk2, Dyn.jacSw1, Dyn.jacSw2]
      | some 3 =>
        refine run_matrix (r := 3) (c := 1) rfl [_, _, _] ?_ m a ha _ ?_
        · plains
        · intro i j
          fin_cases i <;> fin_cases j <;>
            simp [overs, over, valOf, st, Stmt.has, col, ofVec, Dyn.jacClk1, Dyn.jacClk2, Dyn.jacSw1, Dyn.jacSw2]
      | some (n + 4) => rfl)
  refine ⟨m', ?_, rowMajor_flat h2, fun f a hf ha => rowMajor_flat (h3 0 f a hf ha),
    fun f a hf ha => rowMajor_flat (h3 1 f a hf ha), fun f a hf ha => rowMajor_flat (h3 2 f a hf ha),
    fun f a hf ha => rowMajor_flat (h3 3 f a hf ha), h4⟩
  unfold DynObj.evaluate
  rw [dynSize_eq]
  exact h1

/-! ## RelativeCarrierPhase -/

/-- A row with six columns. -/
def row6 (v : V6) : Matrix (Fin 1) (Fin 3 ⊕ Fin 3) ℝ := of fun _ k => Sum.elim v.w v.v k

theorem byElements_eq (v : V6) (T : DQuat) (i : Fin 1) (j : Fin 8) : byElements v T j.val = (row6 v * gen8 T) i j := by
  rw [Matrix.mul_apply]
  unfold byElements gen8 row6
  simp only [eight_eq, submatrix_apply, id, of_apply]

theorem relSize_eq : relSize = szOf 1 [8, 8, 2, 2, 1, 1, 8, 3] := by
  funext g
  match g with
  | none => rfl
  | some 0 => rfl
  | some 1 => rfl
  | some 2 => rfl
  | some 3 => rfl
  | some 4 => rfl
  | some 5 => rfl
  | some 6 => rfl
  | some 7 => rfl
  | some (n + 8) => simp [relSize, szOf]

def relIns (o : RelObj) (p : Fin 8 → ℕ) : List Seg :=
  [⟨o.te2r, 8⟩, ⟨p 0, 8⟩, ⟨p 1, 8⟩, ⟨p 2, 2⟩, ⟨p 3, 2⟩, ⟨p 4, 1⟩, ⟨p 5, 1⟩, ⟨p 6, 8⟩, ⟨p 7, 3⟩]

theorem rel_read {o : RelObj} {p : Fin 8 → ℕ} {m m' : Mem}
    (h : ∀ s ∈ relIns o p, ∀ y, s.has y → m' y = m y) : o.read p m' = o.read p m := by
  have e : ∀ s ∈ relIns o p, ∀ i < s.n, m' (s.a + i) = m (s.a + i) :=
    fun s hs i hi => h s hs _ ⟨by omega, by omega⟩
  simp only [relIns, List.forall_mem_cons] at e
  obtain ⟨e0, e1, e2, e3, e4, e5, e6, e7, e8, -⟩ := e
  unfold RelObj.read
  rw [rd8_congr e0, rd8_congr e1, rd8_congr e2, rdV_congr e3, rdV_congr e4, rdV_congr e5, rdV_congr e6, rd8_congr e7,
    rdV_congr e8]

noncomputable def relV (x : RelCP × RelArg) : Option ℕ → ℕ → ℝ
  | none => flat (col fun _ : Fin 1 => x.1.residual x.2)
  | some 0 => flat (row6 (x.1.jacT1 x.2) * gen8 x.2.T1)
  | some 1 => flat (row6 (x.1.jacT2 x.2) * gen8 x.2.T2)
  | some 2 => flat (row (x.1.jacClk1 x.2))
  | some 3 => flat (row (x.1.jacClk2 x.2))
  | some 4 => flat (col fun _ : Fin 1 => x.1.jacSw1 x.2)
  | some 5 => flat (col fun _ : Fin 1 => x.1.jacSw2 x.2)
  | some 6 => flat (row6 (x.1.jacTr2n x.2) * gen8 x.2.Tr2n)
  | some 7 => flat (row (x.1.jacP x.2))
  | some _ => fun _ => 0

/-- A statement for a pose: eight elements. -/
theorem pose_row {X : Type} (x : X) (b : Option ℕ) (v : X → V6) (T : X → DQuat) (i : Fin 1) (j : Fin 8) :
    overs (List.map (fun s => (s, valOf x s)) [st b 8 0 0 1 8 fun x _ j => byElements (v x) (T x) j]) (fun _ => none)
      (i.val * 8 + j.val) = some ((row6 (v x) * gen8 (T x)) i j) := by
  rw [← byElements_eq]
  fin_cases i
  fin_cases j <;> simp [overs, over, valOf, st, Stmt.has]

/-- `RelativeCarrierPhase`. -/
theorem C138_carrier (o : RelObj) (p : Fin 8 → ℕ) (res : ℕ) (jac : Option (ℕ → Option ℕ)) (m : Mem) (f : RelCP) (x : RelArg)
    (hx : o.read p m = some (f, x)) (hr : Ready m (relIns o p) (blocks ⟨res, 1⟩ jac [8, 8, 2, 2, 1, 1, 8, 3])) :
    ∃ m', o.evaluate p res jac m = some m' ∧ RowMajor m' res (col fun _ : Fin 1 => f.residual x) ∧
      Asked m' jac 0 (row6 (f.jacT1 x) * gen8 x.T1) ∧ Asked m' jac 1 (row6 (f.jacT2 x) * gen8 x.T2) ∧
      Asked m' jac 2 (row (f.jacClk1 x)) ∧ Asked m' jac 3 (row (f.jacClk2 x)) ∧
      Asked m' jac 4 (col fun _ : Fin 1 => f.jacSw1 x) ∧ Asked m' jac 5 (col fun _ : Fin 1 => f.jacSw2 x) ∧
      Asked m' jac 6 (row6 (f.jacTr2n x) * gen8 x.Tr2n) ∧ Asked m' jac 7 (row (f.jacP x)) ∧
      Only m m' (blocks ⟨res, 1⟩ jac [8, 8, 2, 2, 1, 1, 8, 3]) := by
  obtain ⟨m', h1, h2, h3, h4⟩ := eval_spec (o.read p) (relIns o p) (f, x) 1 [8, 8, 2, 2, 1, 1, 8, 3] res jac relStmts m hr
    (fun m' hm' => (rel_read hm').trans hx) (relV (f, x)) (by
      intro g a hg ha
      match g with
      | none =>
        refine run_matrix (r := 1) (c := 1) rfl [_] (by plains) m a ha _ ?_
        intro i j
        fin_cases i; fin_cases j
        simp [overs, over, valOf, st, Stmt.has, col]
      | some 0 =>
        exact run_matrix (r := 1) (c := 8) rfl [_] (by plains) m a ha _
          (pose_row (f, x) (some 0) (fun x => x.1.jacT1 x.2) fun x => x.2.T1)
      | some 1 =>
        exact run_matrix (r := 1) (c := 8) rfl [_] (by plains) m a ha _
          (pose_row (f, x) (some 1) (fun x => x.1.jacT2 x.2) fun x => x.2.T2)
      | some 2 =>
        refine run_matrix (r := 1) (c := 2) rfl [_, _] (by plains) m a ha _ ?_
        intro i j
        fin_cases i; fin_cases j <;> simp [overs, over, valOf, st, Stmt.has, row, RelCP.jacClk1]
      | some 3 =>
        refine run_matrix (r := 1) (c := 2) rfl [_, _] (by plains) m a ha _ ?_
        intro i j
        fin_cases i; fin_cases j <;> simp [overs, over, valOf, st, Stmt.has, row, RelCP.jacClk2]
      | some 4 =>
        refine run_matrix (r := 1) (c := 1) rfl [_] (by plains) m a ha _ ?_
        intro i j
        fin_cases i; fin_cases j; simp [overs, over, valOf, st, Stmt.has, col]
      | some 5 =>
        refine run_matrix (r := 1) (c := 1) rfl [_] (by plains) m a ha _ ?_
        intro i j
        fin_cases i; fin_cases j; simp [overs, over, valOf, st, Stmt.has, col]
      | some 6 =>
        exact run_matrix (r := 1) (c := 8) rfl [_] (by plains) m a ha _
          (pose_row (f, x) (some 6) (fun x => x.1.jacTr2n x.2) fun x => x.2.Tr2n)
      | some 7 =>
        refine run_matrix (r := 1) (c := 3) rfl [_] (by plains) m a ha _ ?_
        intro i j
        fin_cases i; fin_cases j <;> simp [overs, over, valOf, st, Stmt.has, row, ofVec] <;> rfl
      | some (n + 8) => rfl)
  refine ⟨m', ?_, rowMajor_flat h2, fun f a hf ha => rowMajor_flat (h3 0 f a hf ha),
    fun f a hf ha => rowMajor_flat (h3 1 f a hf ha), fun f a hf ha => rowMajor_flat (h3 2 f a hf ha),
    fun f a hf ha => rowMajor_flat (h3 3 f a hf ha), fun f a hf ha => rowMajor_flat (h3 4 f a hf ha),
    fun f a hf ha => rowMajor_flat (h3 5 f a hf ha), fun f a hf ha => rowMajor_flat (h3 6 f a hf ha),
    fun f a hf ha => rowMajor_flat (h3 7 f a hf ha), h4⟩
  unfold RelObj.evaluate
  rw [relSize_eq]
  exact h1

/-! ## PseudorangeModel -/

/-- The six unit errors of a pose. -/
noncomputable def unit6 (k : Fin 3 ⊕ Fin 3) : V6 :=
  ⟨fun i => if k = .inl i then 1 else 0, fun i => if k = .inr i then 1 else 0⟩

/-- The matrix of a map of errors of a pose, and of a map of vectors. -/
noncomputable def mat6 (L : V6 → V3) : Matrix (Fin 3) (Fin 3 ⊕ Fin 3) ℝ := of fun i k => L (unit6 k) i
noncomputable def matV {n : ℕ} (L : (Fin n → ℝ) → V3) : Matrix (Fin 3) (Fin n) ℝ := of fun i k => L (Pi.single k 1) i

theorem dot_unit_inl (v : V3) (j : Fin 3) : v ⬝ᵥ (unit6 (.inl j)).w = v j ∧ v ⬝ᵥ (unit6 (.inl j)).v = 0 := by
  constructor <;> simp [unit6, dotProduct]

theorem dot_unit_inr (v : V3) (j : Fin 3) : v ⬝ᵥ (unit6 (.inr j)).w = 0 ∧ v ⬝ᵥ (unit6 (.inr j)).v = v j := by
  constructor <;> simp [unit6, dotProduct]

theorem weighted_eq (W : M3) (rows : Fin 3 → V6) (L : V6 → V3) (T : DQuat)
    (hL : ∀ ξ, L ξ = W.mulVec fun l => (rows l).w ⬝ᵥ ξ.w + (rows l).v ⬝ᵥ ξ.v) (i : Fin 3) (j : Fin 8) :
    weighted W rows T i.val j.val = (mat6 L * gen8 T) i j := by
  have h1 : ∀ l k, (rows l).w ⬝ᵥ (unit6 k).w + (rows l).v ⬝ᵥ (unit6 k).v = Sum.elim (rows l).w (rows l).v k := by
    intro l k
    cases k with
    | inl k => rw [(dot_unit_inl _ k).1, (dot_unit_inl _ k).2, add_zero]; rfl
    | inr k => rw [(dot_unit_inr _ k).1, (dot_unit_inr _ k).2, zero_add]; rfl
  have h2 : (Fin.ofNat 3 i.val) = i := by fin_cases i <;> rfl
  rw [Matrix.mul_apply]
  unfold weighted byElements mat6 gen8
  simp only [eight_eq, submatrix_apply, id, of_apply, hL, mulVec, dotProduct, h2]
  simp only [dotProduct] at h1
  simp only [h1, Finset.sum_mul, Finset.mul_sum]
  rw [Finset.sum_comm]
  refine Finset.sum_congr rfl fun k _ => Finset.sum_congr rfl fun l _ => ?_
  ring

theorem prSize_eq : prSize = szOf 3 [24, 9, 6, 24, 3, 9] := by
  funext g
  match g with
  | none => rfl
  | some 0 => rfl
  | some 1 => rfl
  | some 2 => rfl
  | some 3 => rfl
  | some 4 => rfl
  | some 5 => rfl
  | some (n + 6) => simp [prSize, szOf]

def prIns (o : PrObj) (p : Fin 6 → ℕ) : List Seg :=
  [⟨o.te2r, 8⟩, ⟨p 0, 8⟩, ⟨p 1, 3⟩, ⟨p 2, 2⟩, ⟨p 3, 8⟩, ⟨p 4, 1⟩, ⟨p 5, 3⟩]

theorem pr_read {o : PrObj} {p : Fin 6 → ℕ} {m m' : Mem}
    (h : ∀ s ∈ prIns o p, ∀ y, s.has y → m' y = m y) : o.read p m' = o.read p m := by
  have e : ∀ s ∈ prIns o p, ∀ i < s.n, m' (s.a + i) = m (s.a + i) :=
    fun s hs i hi => h s hs _ ⟨by omega, by omega⟩
  simp only [prIns, List.forall_mem_cons] at e
  obtain ⟨e0, e1, e2, e3, e4, e5, e6, -⟩ := e
  unfold PrObj.read
  rw [rd8_congr e0, rd8_congr e1, rdV_congr e2, rdV_congr e3, rd8_congr e4, rdV_congr e5, rdV_congr e6]

noncomputable def prV (x : Prange × PrArg) : Option ℕ → ℕ → ℝ
  | none => flat (col (x.1.residual x.2))
  | some 0 => flat (mat6 (x.1.jacT x.2) * gen8 x.2.T)
  | some 1 => flat (matV (x.1.jacVel x.2))
  | some 2 => flat (matV (x.1.jacClk x.2))
  | some 3 => flat (mat6 (x.1.jacTr2n x.2) * gen8 x.2.Tr2n)
  | some 4 => flat (col (x.1.jacSw x.2))
  | some 5 => flat (matV (x.1.jacP x.2))
  | some _ => fun _ => 0

/-- A statement for a pose: 24 elements. -/
theorem pose_mat {X : Type} (x : X) (b : Option ℕ) (W : X → M3) (rows : X → Fin 3 → V6) (T : X → DQuat) (L : V6 → V3)
    (hL : ∀ ξ, L ξ = (W x).mulVec fun l => (rows x l).w ⬝ᵥ ξ.w + (rows x l).v ⬝ᵥ ξ.v) (i : Fin 3) (j : Fin 8) :
    overs (List.map (fun s => (s, valOf x s)) [st b 8 0 0 3 8 fun x => weighted (W x) (rows x) (T x)]) (fun _ => none)
      (i.val * 8 + j.val) = some ((mat6 L * gen8 (T x)) i j) := by
  rw [← weighted_eq _ _ _ _ hL]
  fin_cases i <;> fin_cases j <;> simp [overs, over, valOf, st, Stmt.has]

theorem jacT_rows (f : Prange) (x : PrArg) (ξ : V6) :
    f.jacT x ξ = f.W.mulVec fun l => (prRowsT f x l).w ⬝ᵥ ξ.w + (prRowsT f x l).v ⬝ᵥ ξ.v := by
  unfold Prange.jacT
  congr 1
  funext l
  fin_cases l <;> simp [prRowsT]

theorem jacTr2n_rows (f : Prange) (x : PrArg) (ξ : V6) :
    f.jacTr2n x ξ = f.W.mulVec fun l => (prRowsTr f x l).w ⬝ᵥ ξ.w + (prRowsTr f x l).v ⬝ᵥ ξ.v := by
  unfold Prange.jacTr2n
  congr 1
  funext l
  fin_cases l <;> simp [prRowsTr]

/-- `PseudorangeModel`. -/
theorem C138_pseudorange (o : PrObj) (p : Fin 6 → ℕ) (res : ℕ) (jac : Option (ℕ → Option ℕ)) (m : Mem) (f : Prange)
    (x : PrArg) (hx : o.read p m = some (f, x)) (hr : Ready m (prIns o p) (blocks ⟨res, 3⟩ jac [24, 9, 6, 24, 3, 9])) :
    ∃ m', o.evaluate p res jac m = some m' ∧ RowMajor m' res (col (f.residual x)) ∧
      Asked m' jac 0 (mat6 (f.jacT x) * gen8 x.T) ∧ Asked m' jac 1 (matV (f.jacVel x)) ∧
      Asked m' jac 2 (matV (f.jacClk x)) ∧ Asked m' jac 3 (mat6 (f.jacTr2n x) * gen8 x.Tr2n) ∧
      Asked m' jac 4 (col (f.jacSw x)) ∧ Asked m' jac 5 (matV (f.jacP x)) ∧
      Only m m' (blocks ⟨res, 3⟩ jac [24, 9, 6, 24, 3, 9]) := by
  obtain ⟨m', h1, h2, h3, h4⟩ := eval_spec (o.read p) (prIns o p) (f, x) 3 [24, 9, 6, 24, 3, 9] res jac prStmts m hr
    (fun m' hm' => (pr_read hm').trans hx) (prV (f, x)) (by
      intro g a hg ha
      match g with
      | none =>
        refine run_matrix (r := 3) (c := 1) rfl [_] (by plains) m a ha _ ?_
        intro i j
        fin_cases i <;> fin_cases j <;> simp [overs, over, valOf, st, Stmt.has, col, ofVec] <;> rfl
      | some 0 =>
        exact run_matrix (r := 3) (c := 8) rfl [_] (by plains) m a ha _
          (pose_mat (f, x) (some 0) (fun x => x.1.W) (fun x => prRowsT x.1 x.2) (fun x => x.2.T) _ (jacT_rows f x))
      | some 1 =>
        refine run_matrix (r := 3) (c := 3) rfl [_, _, _] (by plains) m a ha _ ?_
        intro i j
        fin_cases i <;> fin_cases j <;>
          simp [overs, over, valOf, st, Stmt.has, matV, ofVec, Prange.jacVel] <;> exact Or.inl rfl
      | some 2 =>
        refine run_matrix (r := 3) (c := 2) rfl [_, _, _] (by plains) m a ha _ ?_
        intro i j
        fin_cases i <;> fin_cases j <;>
          simp [overs, over, valOf, st, Stmt.has, matV, ofVec, Prange.jacClk]
      | some 3 =>
        exact run_matrix (r := 3) (c := 8) rfl [_] (by plains) m a ha _
          (pose_mat (f, x) (some 3) (fun x => x.1.W) (fun x => prRowsTr x.1 x.2) (fun x => x.2.Tr2n) _ (jacTr2n_rows f x))
      | some 4 =>
        refine run_matrix (r := 3) (c := 1) rfl [_, _, _] (by plains) m a ha _ ?_
        intro i j
        fin_cases i <;> fin_cases j <;> simp [overs, over, valOf, st, Stmt.has, col, Prange.jacSw]
      | some 5 =>
        refine run_matrix (r := 3) (c := 3) rfl [_, _, _] (by plains) m a ha _ ?_
        intro i j
        fin_cases i <;> fin_cases j <;>
          simp [overs, over, valOf, st, Stmt.has, matV, ofVec, Prange.jacP] <;> exact Or.inl rfl
      | some (n + 6) => rfl)
  refine ⟨m', ?_, rowMajor_flat h2, fun f a hf ha => rowMajor_flat (h3 0 f a hf ha),
    fun f a hf ha => rowMajor_flat (h3 1 f a hf ha), fun f a hf ha => rowMajor_flat (h3 2 f a hf ha),
    fun f a hf ha => rowMajor_flat (h3 3 f a hf ha), fun f a hf ha => rowMajor_flat (h3 4 f a hf ha),
    fun f a hf ha => rowMajor_flat (h3 5 f a hf ha), h4⟩
  unfold PrObj.evaluate
  rw [prSize_eq]
  exact h1

/-! ## PoseError -/

theorem peSize_eq : peSize = szOf 6 [48] := by
  funext g
  match g with
  | none => rfl
  | some 0 => rfl
  | some (n + 1) => simp [peSize, szOf]

/-- Six numbers as a column. -/
def col6 (v : V6) : Matrix (Fin 6) (Fin 1) ℝ := of fun i _ => Sum.elim v.w v.v ((finSumFinEquiv (m := 3) (n := 3)).symm i)

/-- The weighted Jacobian of the logarithm. -/
noncomputable def peJac (f : PoseErr) (D : M6) : Matrix (Fin 6) (Fin 3 ⊕ Fin 3) ℝ :=
  (diagonal (Sum.elim f.Xi.w f.Xi.v) * D).submatrix (finSumFinEquiv (m := 3) (n := 3)).symm id

theorem peJac_eq (f : PoseErr) (D : M6) (T : DQuat) (i : Fin 6) (j : Fin 8) :
    ∑ k, Sum.elim f.Xi.w f.Xi.v (six i.val) * D (six i.val) k * T.dGenDParam k (eight j.val) = (peJac f D * gen8 T) i j := by
  rw [Matrix.mul_apply]
  refine Finset.sum_congr rfl fun k _ => ?_
  simp only [peJac, gen8, six_eq, eight_eq, submatrix_apply, id, diagonal_mul]

/-- `PoseError`: the residual depends on whether the Jacobian is asked for. -/
theorem C138_pose_partial (f : PoseErr) (D : DQuat → M6) (p res : ℕ) (jac : Option (ℕ → Option ℕ)) (m : Mem) (T : DQuat)
    (hx : rd8 m p = some T) (hr : Ready m [⟨p, 8⟩] (blocks ⟨res, 6⟩ jac [48])) :
    ∃ m', peEvaluate f D p res jac m = some m' ∧
      RowMajor m' res (col6 (if (jac.bind fun f => f 0).isSome then f.withJac T else f.plain T)) ∧
      Asked m' jac 0 (peJac f (D T) * gen8 T) ∧ Only m m' (blocks ⟨res, 6⟩ jac [48]) := by
  have hrd : ∀ m' : Mem, (∀ s ∈ [(⟨p, 8⟩ : Seg)], ∀ y, s.has y → m' y = m y) → rd8 m' p = some T := by
    intro m' h
    rw [← hx]
    exact rd8_congr fun i hi => h ⟨p, 8⟩ (by simp) _ ⟨by simp, by simpa using hi⟩
  have hcol : ∀ v : V6, ∀ (i : Fin 6) (j : Fin 1), Sum.elim v.w v.v (six i.val) = col6 v i j := by
    intro v i j
    rw [six_eq]; rfl
  have hcells : ∀ (w : DQuat → V6) (i : Fin 6) (j : Fin 1), overs (List.map (fun s => (s, valOf T s))
      [st none 1 0 0 6 1 fun T i _ => Sum.elim (w T).w (w T).v (six i)]) (fun _ => none) (i.val * 1 + j.val) =
      some (col6 (w T) i j) := by
    intro w i j
    rw [← hcol]
    fin_cases i <;> fin_cases j <;> simp [overs, over, valOf, st, Stmt.has]
  unfold peEvaluate
  rw [peSize_eq]
  cases hj : (jac.bind fun f => f 0) with
  | none =>
    obtain ⟨m', h1, h2, h3, h4⟩ := eval_spec (fun m => rd8 m p) [⟨p, 8⟩] T 6 [48] res jac (peStmts f D false) m hr hrd
      (fun g => match g with | none => flat (col6 (f.plain T)) | some _ => fun _ => 0) (by
        intro g a hg ha
        match g with
        | none => exact run_matrix (r := 6) (c := 1) rfl [_] (by plains) m a ha _ (hcells f.plain)
        | some 0 => exact absurd hg (by simp [addr, hj])
        | some (n + 1) => rfl)
    refine ⟨m', ?_, ?_, fun g a hg ha => ?_, h4⟩
    · rw [show addr res jac (some 0) = none from hj]
      exact h1
    · simpa using rowMajor_flat h2
    · simp [hg, ha] at hj
  | some b =>
    obtain ⟨m', h1, h2, h3, h4⟩ := eval_spec (fun m => rd8 m p) [⟨p, 8⟩] T 6 [48] res jac (peStmts f D true) m hr hrd
      (fun g => match g with
        | none => flat (col6 (f.withJac T)) | some 0 => flat (peJac f (D T) * gen8 T) | some _ => fun _ => 0) (by
        intro g a hg ha
        match g with
        | none => exact run_matrix (r := 6) (c := 1) rfl [_] (by plains) m a ha _ (hcells f.withJac)
        | some 0 =>
          refine run_matrix (r := 6) (c := 8) rfl [_] (by plains) m a ha _ ?_
          intro i j
          rw [← peJac_eq]
          fin_cases i <;> fin_cases j <;> simp [overs, over, valOf, st, Stmt.has]
        | some (n + 1) => rfl)
    refine ⟨m', ?_, ?_, fun g a hg ha => rowMajor_flat (h3 0 g a hg ha), h4⟩
    · rw [show addr res jac (some 0) = some b from hj]
      exact h1
    · simpa using rowMajor_flat h2

/-! ## ImuModel -/

theorem imuSize_eq : imuSize = szOf 9 [72, 72, 27, 27, 54] := by
  funext g
  match g with
  | none => rfl
  | some 0 => rfl
  | some 1 => rfl
  | some 2 => rfl
  | some 3 => rfl
  | some 4 => rfl
  | some (n + 5) => simp [imuSize, szOf]

def imuIns (p : Fin 5 → ℕ) : List Seg := [⟨p 0, 8⟩, ⟨p 1, 8⟩, ⟨p 2, 3⟩, ⟨p 3, 3⟩, ⟨p 4, 6⟩]

theorem imu_read {p : Fin 5 → ℕ} {m m' : Mem}
    (h : ∀ s ∈ imuIns p, ∀ y, s.has y → m' y = m y) : imuRead p m' = imuRead p m := by
  have e : ∀ s ∈ imuIns p, ∀ i < s.n, m' (s.a + i) = m (s.a + i) :=
    fun s hs i hi => h s hs _ ⟨by omega, by omega⟩
  simp only [imuIns, List.forall_mem_cons] at e
  obtain ⟨e0, e1, e2, e3, e4, -⟩ := e
  unfold imuRead
  have e5 : rdV 3 m' (p 4 + 3) = rdV 3 m (p 4 + 3) :=
    rdV_congr fun i hi => by have := e4 (3 + i) (by omega); simpa [Nat.add_assoc] using this
  have e6 : rdV 3 m' (p 4) = rdV 3 m (p 4) := rdV_congr fun i hi => e4 i (by omega)
  rw [rd8_congr e0, rd8_congr e1, rdV_congr e2, rdV_congr e3, e5, e6]

/-- Nine numbers in the order of the memory. -/
def pair (i : Fin 9) : I9 := (finProdFinEquiv (m := 3) (n := 3)).symm i

/-- The 9×6 matrix of a Jacobian with respect to a pose, the 9×3 matrix of one with respect to a velocity, the 9×6 matrix of one
with respect to the bias. -/
noncomputable def mat96 (J : PoseJac) : Matrix (Fin 9) (Fin 3 ⊕ Fin 3) ℝ := of fun i k => (J.apply (unit6 k)).toVec (pair i)
def mat93 (J : Fin 3 → M3) : Matrix (Fin 9) (Fin 3) ℝ := of fun i j => J (pair i).1 (pair i).2 j
def matB (J : Matrix I9 I6 ℝ) : Matrix (Fin 9) (Fin 6) ℝ := J.submatrix pair (finProdFinEquiv (m := 2) (n := 3)).symm

theorem pair_eq (i : Fin 9) : nine i.val = pair i := by revert i; decide
theorem two_eq (i : Fin 6) : twoThree i.val = (finProdFinEquiv (m := 2) (n := 3)).symm i := by revert i; decide

/-- The elements of a `PoseJacobian`. -/
def poseEl (J : PoseJac) (i : ℕ) (k : Fin 3 ⊕ Fin 3) : ℝ :=
  match k with
  | .inl k => J.rot (nine i).1 (nine i).2 k
  | .inr k => J.pos (nine i).1 (nine i).2 k

theorem mat96_eq (J : PoseJac) (i : Fin 9) (k : Fin 3 ⊕ Fin 3) : mat96 J i k = poseEl J i.val k := by
  have hw : ∀ (A : M3) (k j : Fin 3), A.mulVec (unit6 (.inl k)).w j = A j k := by
    intro A k j; exact (dot_unit_inl (A j) k).1
  have hw0 : ∀ (A : M3) (k j : Fin 3), A.mulVec (unit6 (.inl k)).v j = 0 := by
    intro A k j; exact (dot_unit_inl (A j) k).2
  have hv : ∀ (A : M3) (k j : Fin 3), A.mulVec (unit6 (.inr k)).v j = A j k := by
    intro A k j; exact (dot_unit_inr (A j) k).2
  have hv0 : ∀ (A : M3) (k j : Fin 3), A.mulVec (unit6 (.inr k)).w j = 0 := by
    intro A k j; exact (dot_unit_inr (A j) k).1
  unfold mat96 poseEl
  rw [pair_eq, of_apply]
  generalize pair i = q
  obtain ⟨a, b⟩ := q
  cases k <;> fin_cases a <;> simp [PoseJac.apply, IErr.toVec, hw, hw0, hv, hv0]

theorem pose_cells (x : ImuX) (b : ℕ) (J : ImuX → PoseJac) (c : Mem) (i : Fin 9) (k : Fin 6) :
    overs (List.map (fun s => (s, valOf x s)) (poseStmts b J)) c (i.val * 8 + k.val) =
      some (poseEl (J x) i.val (six k.val)) := by
  fin_cases i <;> fin_cases k <;> simp [overs, over, valOf, st, Stmt.has, poseStmts, poseEl, six, nine, ofMat] <;> rfl

theorem run_pose (x : ImuX) (b : ℕ) (J : ImuX → PoseJac) (Q : ImuX → DQuat) (m : Mem) (a : ℕ)
    (hm : ∀ i < 72, (m (a + i)).isSome) :
    runB x (poseStmts b J ++ [linearize b Q]) (blk m a 72) =
      some (fun i => if i < 72 then some (flat (mat96 (J x) * gen8 (Q x)) i) else none) := by
  have hpl : ∀ s ∈ List.map (fun s => (s, valOf x s)) (poseStmts b J), Plain x 72 s.1 s.2 := by
    intro s hs
    obtain ⟨t, ht, rfl⟩ := List.mem_map.1 hs
    clear hs
    revert t
    unfold poseStmts
    plains
  obtain ⟨h1, h2, h3⟩ := run_plain _ hpl (blk m a 72) fun i hi => by simp [blk, hi, hm i hi]
  rw [List.map_map, show (Prod.fst ∘ fun s : Stmt ImuX => (s, valOf x s)) = id from rfl, List.map_id] at h1
  rw [runB_append, h1, Option.bind_some]
  generalize hc : overs (List.map (fun s => (s, valOf x s)) (poseStmts b J)) (blk m a 72) = c at h2 h3
  have hcell : ∀ (i : Fin 9) (k : Fin 6), c (i.val * 8 + k.val) = some (poseEl (J x) i.val (six k.val)) := by
    intro i k
    rw [← hc]
    exact pose_cells x b J _ i k
  have hval : (linearize b Q).val x c = some fun i j => ∑ k : Fin 6, (c (i * 8 + k)).getD 0 *
      (Q x).dGenDParam (six k) (eight j) := by
    unfold linearize
    simp only
    rw [if_pos]
    intro i hi k hk
    rw [hcell ⟨i, hi⟩ ⟨k, hk⟩]; rfl
  have hp : Plain x 72 ⟨some b, 8, 0, 0, 9, 8, fun _ _ => some fun i j => ∑ k : Fin 6, (c (i * 8 + k)).getD 0 *
      (Q x).dGenDParam (six k) (eight j)⟩ (fun i j => ∑ k : Fin 6, (c (i * 8 + k)).getD 0 *
      (Q x).dGenDParam (six k) (eight j)) := ⟨fun _ => rfl, Nat.le_refl 72, Nat.le_refl 8⟩
  have hput := put_plain hp c h2
  rw [runB, hval, Option.bind_some]
  rw [show put (linearize b Q) c 0 = put (X := ImuX) ⟨some b, 8, 0, 0, 9, 8, fun _ _ => some fun i j =>
    ∑ k : Fin 6, (c (i * 8 + k)).getD 0 * (Q x).dGenDParam (six k) (eight j)⟩ c 0 from rfl, hput, Option.bind_some, runB,
    Option.some.injEq]
  funext i
  by_cases hi : i < 72
  · rw [if_pos hi]
    obtain ⟨p, q, rfl⟩ := exists_at (r := 9) (c := 8) hi
    rw [flat_at]
    have e1 : (p.val * 8 + q.val) / 8 = p := by have := q.2; omega
    have e2 : (p.val * 8 + q.val) % 8 = q := by have := q.2; omega
    unfold over
    rw [if_pos (by unfold Stmt.has; simp only [e1, e2]; have := p.2; have := q.2; omega)]
    simp only [e1, e2, Nat.sub_zero, hcell, Option.getD_some]
    rw [Matrix.mul_apply, ← (finSumFinEquiv (m := 3) (n := 3)).sum_comp]
    congr 1
    refine Finset.sum_congr rfl fun k _ => ?_
    rw [mat96_eq, six_eq, Equiv.symm_apply_apply, eight_eq]
    rfl
  · rw [if_neg hi]
    unfold over
    rw [if_neg, h3 i (by omega)]
    · simp [blk, hi]
    · unfold Stmt.has
      simp only
      omega

noncomputable def imuV (f : Pre) (L : ImuX → M3) (x : ImuX) : Option ℕ → ℕ → ℝ
  | none => flat (col fun i => (f.residual x.start x.fin x.v x.v' x.b).toVec (pair i))
  | some 0 => flat (mat96 (f.startJac x.start x.fin x.b (L x)) * gen8 x.start)
  | some 1 => flat (mat96 (f.endJac x.start x.b (L x)) * gen8 x.fin)
  | some 2 => flat (mat93 f.startVelJac)
  | some 3 => flat (mat93 (f.endVelJac x.b))
  | some 4 => flat (matB (f.biasJac x.start x.fin x.v' x.b (L x)))
  | some _ => fun _ => 0

theorem vel_cells (x : ImuX) (b : Option ℕ) (J : ImuX → Fin 3 → M3) (i : Fin 9) (j : Fin 3) :
    overs (List.map (fun s => (s, valOf x s)) [st b 3 0 0 3 3 fun x => ofMat (J x 0), st b 3 3 0 3 3 fun x => ofMat (J x 1),
      st b 3 6 0 3 3 fun x => ofMat (J x 2)]) (fun _ => none) (i.val * 3 + j.val) = some (mat93 (J x) i j) := by
  unfold mat93
  rw [of_apply, ← pair_eq]
  fin_cases i <;> fin_cases j <;> simp [overs, over, valOf, st, Stmt.has, nine, ofMat] <;> rfl

/-- `ImuModel`; the Jacobians with respect to the poses are computed in the memory of the solver. -/
theorem C138_imu (f : Pre) (L : ImuX → M3) (p : Fin 5 → ℕ) (res : ℕ) (jac : Option (ℕ → Option ℕ)) (m : Mem) (x : ImuX)
    (hx : imuRead p m = some x) (hr : Ready m (imuIns p) (blocks ⟨res, 9⟩ jac [72, 72, 27, 27, 54])) :
    ∃ m', imuEvaluate f L p res jac m = some m' ∧
      RowMajor m' res (col fun i => (f.residual x.start x.fin x.v x.v' x.b).toVec (pair i)) ∧
      Asked m' jac 0 (mat96 (f.startJac x.start x.fin x.b (L x)) * gen8 x.start) ∧
      Asked m' jac 1 (mat96 (f.endJac x.start x.b (L x)) * gen8 x.fin) ∧
      Asked m' jac 2 (mat93 f.startVelJac) ∧ Asked m' jac 3 (mat93 (f.endVelJac x.b)) ∧
      Asked m' jac 4 (matB (f.biasJac x.start x.fin x.v' x.b (L x))) ∧
      Only m m' (blocks ⟨res, 9⟩ jac [72, 72, 27, 27, 54]) := by
  obtain ⟨m', h1, h2, h3, h4⟩ := eval_spec (imuRead p) (imuIns p) x 9 [72, 72, 27, 27, 54] res jac (imuStmts f L) m hr
    (fun m' hm' => (imu_read hm').trans hx) (imuV f L x) (by
      intro g a hg ha
      match g with
      | none =>
        refine run_matrix (r := 9) (c := 1) rfl [_, _, _] (by plains) m a ha _ ?_
        intro i j
        unfold col
        rw [of_apply]
        dsimp only
        rw [← pair_eq]
        fin_cases i <;> fin_cases j <;> simp [overs, over, valOf, st, Stmt.has, nine, ofVec, IErr.toVec] <;> rfl
      | some 0 => exact run_pose x 0 _ _ m a ha
      | some 1 => exact run_pose x 1 _ _ m a ha
      | some 2 =>
        exact run_matrix (r := 9) (c := 3) rfl [_, _, _] (by plains) m a ha _
          (vel_cells x (some 2) fun _ => f.startVelJac)
      | some 3 =>
        exact run_matrix (r := 9) (c := 3) rfl [_, _, _] (by plains) m a ha _
          (vel_cells x (some 3) fun x => f.endVelJac x.b)
      | some 4 =>
        refine run_matrix (r := 9) (c := 6) rfl [_] (by plains) m a ha _ ?_
        intro i j
        unfold matB
        rw [submatrix_apply, ← pair_eq, ← two_eq]
        fin_cases i <;> fin_cases j <;> simp [overs, over, valOf, st, Stmt.has]
      | some (n + 5) => rfl)
  refine ⟨m', ?_, rowMajor_flat h2, fun f a hf ha => rowMajor_flat (h3 0 f a hf ha),
    fun f a hf ha => rowMajor_flat (h3 1 f a hf ha), fun f a hf ha => rowMajor_flat (h3 2 f a hf ha),
    fun f a hf ha => rowMajor_flat (h3 3 f a hf ha), fun f a hf ha => rowMajor_flat (h3 4 f a hf ha), h4⟩
  unfold imuEvaluate
  rw [imuSize_eq]
  exact h1

/-! ## What does not hold -/

/-- The memory with the eight numbers of a pose at 0 and zeros elsewhere. -/
noncomputable def poseMem (T : DQuat) : Mem := fun y =>
  some (if y = 0 then T.r.w else if y = 1 then T.r.x else if y = 2 then T.r.y else if y = 3 then T.r.z else
    if y = 4 then T.d.w else if y = 5 then T.d.x else if y = 6 then T.d.y else if y = 7 then T.d.z else 0)

theorem poseMem_read (T : DQuat) : rd8 (poseMem T) 0 = some T := by
  simp [rd8, rd4, poseMem]

theorem pose_ready (T : DQuat) (jac : Option (ℕ → Option ℕ)) (hj : jac = none ∨ jac = some fun _ => some 16) :
    Ready (poseMem T) [⟨0, 8⟩] (blocks ⟨8, 6⟩ jac [48]) := by
  have hb : ∀ g s, blocks ⟨8, 6⟩ jac [48] g = some s → (g = none ∧ s = ⟨8, 6⟩) ∨ (g = some 0 ∧ s = ⟨16, 48⟩) := by
    intro g s h
    match g with
    | none => left; simp [blocks] at h; exact ⟨rfl, h.symm⟩
    | some 0 =>
      right
      rcases hj with rfl | rfl <;> simp [blocks] at h
      exact ⟨rfl, h.symm⟩
    | some (n + 1) => rcases hj with rfl | rfl <;> simp [blocks] at h
  refine ⟨fun g s h y hy => rfl, fun g g' s t hne h h' y hy ht => ?_, fun g s h t ht y hy hyt => ?_⟩
  · rcases hb g s h with ⟨rfl, rfl⟩ | ⟨rfl, rfl⟩ <;> rcases hb g' t h' with ⟨rfl, rfl⟩ | ⟨rfl, rfl⟩ <;>
      simp_all [Seg.has] <;> omega
  · rw [List.mem_singleton] at ht
    subst ht
    rcases hb g s h with ⟨rfl, rfl⟩ | ⟨rfl, rfl⟩ <;> simp_all [Seg.has] <;> omega

/-- **C138** is violated: the residual of `PoseError` depends on whether its Jacobian is asked for. -/
theorem C138_pattern_violated (D : DQuat → M6) : ∃ (T : DQuat) (m₁ m₂ : Mem) (r₁ r₂ : ℝ), UnitD T ∧
    peEvaluate ones D 0 8 none (poseMem T) = some m₁ ∧
    peEvaluate ones D 0 8 (some fun _ => some 16) (poseMem T) = some m₂ ∧
    m₁ 11 = some r₁ ∧ m₂ 11 = some r₂ ∧ r₁ + 1 < r₂ := by
  obtain ⟨T, hT, h⟩ := C88_overload_violated
  obtain ⟨m₁, a1, a2, -, -⟩ := C138_pose_partial ones D 0 8 none _ T (poseMem_read T) (pose_ready T _ (Or.inl rfl))
  obtain ⟨m₂, b1, b2, -, -⟩ := C138_pose_partial ones D 0 8 (some fun _ => some 16) _ T (poseMem_read T)
    (pose_ready T _ (Or.inr rfl))
  exact ⟨T, m₁, m₂, (ones.plain T).v 0, (ones.withJac T).v 0, hT, a1, b1, a2 3 0, b2 3 0, by linarith⟩

/-- **C138** is violated: `GnssDynamics` keeps a reference to its weights.  Once they are gone nothing can be evaluated. -/
theorem C138_reference_violated (dt : ℝ) (xi : ℕ) (p : Fin 4 → ℕ) (res : ℕ) (jac : Option (ℕ → Option ℕ)) (m : Mem)
    (h : m xi = none) : (DynObj.new dt xi).evaluate p res jac m = none := by
  have hv : rdV 3 m xi = none := by
    unfold rdV
    rw [dif_neg]
    intro h'
    have := h' 0
    simp [h] at this
  have hrd : (DynObj.new dt xi).read p m = none := by
    unfold DynObj.read DynObj.new
    simp [hv]
  unfold DynObj.evaluate dynStmts
  rw [exec, hrd]
  rfl

/-- Weights at 0, clocks at 3 and 5, switches at 7 and 8, the residual at 9. -/
noncomputable def dynMem (w : ℝ) : Mem := fun y => some (if y = 0 then w else if y = 5 then 1 else 0)

def dynAt : Fin 4 → ℕ := ![3, 5, 7, 8]

theorem dynMem_read (dt w : ℝ) : (DynObj.new dt 0).read dynAt (dynMem w) =
    some ⟨⟨dt, ![w, 0, 0]⟩, ![0, 0], ![1, 0], ![0], ![0]⟩ := by
  have h {n : ℕ} (a : ℕ) : rdV n (dynMem w) a = some fun i => if a + i.val = 0 then w else if a + i.val = 5 then 1 else 0 :=
    dif_pos fun _ => rfl
  have h3 : rdV 3 (dynMem w) 0 = some ![w, 0, 0] := by
    rw [h, Option.some.injEq]; funext i; fin_cases i <;> simp
  have h4 : rdV 2 (dynMem w) 3 = some ![0, 0] := by
    rw [h, Option.some.injEq]; funext i; fin_cases i <;> simp
  have h5 : rdV 2 (dynMem w) 5 = some ![1, 0] := by
    rw [h, Option.some.injEq]; funext i; fin_cases i <;> simp
  have h7 : rdV 1 (dynMem w) 7 = some ![0] := by
    rw [h, Option.some.injEq]; funext i; fin_cases i; simp
  have h8 : rdV 1 (dynMem w) 8 = some ![0] := by
    rw [h, Option.some.injEq]; funext i; fin_cases i; simp
  unfold DynObj.read DynObj.new dynAt
  simp [h3, h4, h5, h7, h8]

theorem dyn_ready (dt w : ℝ) : Ready (dynMem w) (dynIns (DynObj.new dt 0) dynAt) (blocks ⟨9, 3⟩ none [6, 6, 3, 3]) := by
  have hb : ∀ g s, blocks ⟨9, 3⟩ none [6, 6, 3, 3] g = some s → g = none ∧ s = ⟨9, 3⟩ := by
    intro g s h
    match g with
    | none => simp [blocks] at h; exact ⟨rfl, h.symm⟩
    | some n => simp [blocks] at h
  refine ⟨fun g s h y hy => rfl, fun g g' s t hne h h' y hy ht => ?_, fun g s h t ht y hy hyt => ?_⟩
  · obtain ⟨rfl, -⟩ := hb g s h
    obtain ⟨rfl, -⟩ := hb g' t h'
    exact hne rfl
  · obtain ⟨rfl, rfl⟩ := hb g s h
    simp only [dynIns, DynObj.new, dynAt, List.mem_cons, List.not_mem_nil, or_false] at ht
    unfold Seg.has at hy hyt
    rcases ht with rfl | rfl | rfl | rfl | rfl <;> simp at hy hyt <;> omega

/-- The same object and the same parameters: another residual, because the caller has changed the vector of weights. -/
theorem C138_weights_violated (dt : ℝ) : ∃ m₁ m₂ : Mem, (∀ y, y ≠ 0 → dynMem 1 y = dynMem 2 y) ∧
    (DynObj.new dt 0).evaluate dynAt 9 none (dynMem 1) = some m₁ ∧
    (DynObj.new dt 0).evaluate dynAt 9 none (dynMem 2) = some m₂ ∧ m₁ 9 ≠ m₂ 9 := by
  obtain ⟨m₁, a1, a2, -⟩ := C138_dynamics (DynObj.new dt 0) dynAt 9 none _ _ (dynMem_read dt 1) (dyn_ready dt 1)
  obtain ⟨m₂, b1, b2, -⟩ := C138_dynamics (DynObj.new dt 0) dynAt 9 none _ _ (dynMem_read dt 2) (dyn_ready dt 2)
  refine ⟨m₁, m₂, fun y hy => by simp [dynMem, hy], a1, b1, ?_⟩
  rw [show m₁ 9 = _ from a2 0 0, show m₂ 9 = _ from b2 0 0]
  simp [col, Dyn.residual]

/-- The whole of **C138** for `PoseError`: one residual, whatever is asked for. -/
def C138_statement : Prop :=
  ∀ (f : PoseErr) (D : DQuat → M6) (p res : ℕ) (jac jac' : Option (ℕ → Option ℕ)) (m : Mem) (T : DQuat), UnitD T →
    rd8 m p = some T → Ready m [⟨p, 8⟩] (blocks ⟨res, 6⟩ jac [48]) → Ready m [⟨p, 8⟩] (blocks ⟨res, 6⟩ jac' [48]) →
    ∃ m₁ m₂, peEvaluate f D p res jac m = some m₁ ∧ peEvaluate f D p res jac' m = some m₂ ∧
      ∀ i < 6, m₁ (res + i) = m₂ (res + i)

theorem C138_statement_false : ¬ C138_statement := by
  intro h
  obtain ⟨T, m₁, m₂, r₁, r₂, hT, a1, a2, a3, a4, a5⟩ := C138_pattern_violated fun _ => 0
  obtain ⟨k₁, k₂, b1, b2, b3⟩ := h ones (fun _ => 0) 0 8 none (some fun _ => some 16) _ T hT (poseMem_read T)
    (pose_ready T _ (Or.inl rfl)) (pose_ready T _ (Or.inr rfl))
  rw [a1, Option.some.injEq] at b1
  rw [a2, Option.some.injEq] at b2
  have := b3 3 (by omega)
  rw [← b1, ← b2, a3, a4, Option.some.injEq] at this
  linarith

/-- A memory that is ready for `GnssDynamics` with the first and the last Jacobian asked for. -/
example : Ready (dynMem 1) (dynIns (DynObj.new 1 0) dynAt)
    (blocks ⟨9, 3⟩ (some fun k => if k = 0 then some 12 else if k = 3 then some 18 else none) [6, 6, 3, 3]) := by
  have hb : ∀ g s, blocks ⟨9, 3⟩ (some fun k => if k = 0 then some 12 else if k = 3 then some 18 else none) [6, 6, 3, 3] g =
      some s → (g = none ∧ s = ⟨9, 3⟩) ∨ (g = some 0 ∧ s = ⟨12, 6⟩) ∨ (g = some 3 ∧ s = ⟨18, 3⟩) := by
    intro g s h
    match g with
    | none => left; simp [blocks] at h; exact ⟨rfl, h.symm⟩
    | some 0 => right; left; simp [blocks] at h; exact ⟨rfl, h.symm⟩
    | some 1 => simp [blocks] at h
    | some 2 => simp [blocks] at h
    | some 3 => right; right; simp [blocks] at h; exact ⟨rfl, h.symm⟩
    | some (n + 4) => simp [blocks] at h
  refine ⟨fun g s h y hy => rfl, fun g g' s t hne h h' y hy ht => ?_, fun g s h t ht y hy hyt => ?_⟩
  · rcases hb g s h with ⟨rfl, rfl⟩ | ⟨rfl, rfl⟩ | ⟨rfl, rfl⟩ <;>
      rcases hb g' t h' with ⟨rfl, rfl⟩ | ⟨rfl, rfl⟩ | ⟨rfl, rfl⟩ <;> simp_all [Seg.has] <;> omega
  · simp only [dynIns, DynObj.new, dynAt, List.mem_cons, List.not_mem_nil, or_false] at ht
    unfold Seg.has at hy hyt
    rcases hb g s h with ⟨rfl, rfl⟩ | ⟨rfl, rfl⟩ | ⟨rfl, rfl⟩ <;>
      rcases ht with rfl | rfl | rfl | rfl | rfl <;> simp at hy hyt <;> omega

end Verif.Props.Evaluate
