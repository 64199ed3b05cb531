import Verif.Props.EkfState
import Verif.Props.Sim
import Verif.Props.SymbDense
import Verif.Props.Gather
import Verif.Props.Galileo
import Verif.Props.Glonass
import Verif.Props.QuatMem
import Verif.Props.Progress
import Verif.Props.Messages
import Verif.Props.LogFormat

/-!
Further theorems of C48, C53, C97, C100, C110, C116, C117, C118, C124 and C125, on the parts of the models that the
theorems beside those claims do not mention.
-/

namespace Verif.Props.Rest

open Verif.Model.Lie Verif.Spec.Lie Verif.Lemmas.Lie Verif.Props.Quat Verif.Props.DQuat Verif.Props.So3 Matrix

/-! ### C48: the adjoint of `SO3` -/

theorem conj_rodrigues {M : M3} (h : IsRot M) (a b : ℝ) (w : V3) :
    M * rodrigues a b w * M.transpose = rodrigues a b (M.mulVec w) := by
  have hk := rot_skew h w
  have e1 : M * skew w * M.transpose = skew (M.mulVec w) := by
    rw [hk, Matrix.mul_assoc, h.1, Matrix.mul_one]
  have e2 : M * (skew w * skew w) * M.transpose = skew (M.mulVec w) * skew (M.mulVec w) := by
    rw [← Matrix.mul_assoc, hk, Matrix.mul_assoc (skew (M.mulVec w)), hk, Matrix.mul_assoc, Matrix.mul_assoc, h.1, Matrix.mul_one]
  unfold rodrigues
  rw [Matrix.mul_add, Matrix.mul_add, Matrix.add_mul, Matrix.add_mul, Matrix.mul_one, h.1, Matrix.mul_smul, Matrix.smul_mul, e1,
    Matrix.smul_mul, Matrix.mul_smul, Matrix.smul_mul, e2, Matrix.smul_mul]

/-- C48: the adjoint moves a tangent vector through a rotation exactly, in both branches of `exp`: `R exp(w) R⁻¹` is
`exp(Ad(R) w)`; it is a homomorphism. -/
theorem C48_Ad_so3 (x y : M3) (hx : IsRot x) (w : V3) :
    SO3.times (SO3.times x (SO3.exp w)) (SO3.inverse x) = SO3.exp ((SO3.Ad x).mulVec w) ∧
    SO3.Ad (SO3.times x y) = SO3.Ad x * SO3.Ad y ∧ SO3.Ad (SO3.inverse x) * SO3.Ad x = 1 := by
  refine ⟨?_, rfl, (rot_rel hx).1⟩
  have hn : sqNorm (x.mulVec w) = sqNorm w := by
    have e : sqNorm (x.mulVec w) = x.mulVec w ⬝ᵥ x.mulVec w := by
      rw [sqNorm_at, dotProduct, Fin.sum_univ_three]
    rw [e, dotProduct_mulVec, vecMul_mulVec, (rot_rel hx).1, vecMul_one, sqNorm_at, dotProduct, Fin.sum_univ_three]
  have e : abcSo3 (x.mulVec w) = abcSo3 w := by
    unfold abcSo3
    rw [hn]
  show x * rodrigues (abcSo3 w).1 (abcSo3 w).2.1 w * x.transpose = rodrigues (abcSo3 (x.mulVec w)).1 (abcSo3 (x.mulVec w)).2.1 (x.mulVec w)
  rw [e, conj_rodrigues hx]

/-! ### C97, C100: the gyroscope, and a step of the car -/

open Verif.Model.Sim Verif.Lemmas.LieCurve in
/-- The gyroscope is right: a point `p` fixed to the body moves, in the world frame and relative to the body's origin, with
the velocity `ω × p` for the reading `ω`; no other reading has this property. -/
theorem C97_gyro (j : Jet) (hj : UnitQ j.x.r) (ω : V3) :
    (∀ p, HasVecDeriv (fun t => (pert j.x j.dx t).r.rota p) (j.x.r.rota (cross ω p))) ↔ ω = imuGyro j := by
  have hd : ∀ p, HasVecDeriv (fun t => (pert j.x j.dx t).r.rota p) (j.x.r.rota (cross j.dx.w p)) := by
    intro p
    refine (pert_rota j.x hj j.dx (vconst p)).congr ?_
    rw [rota_eq, rota_eq, mulVec_zero, add_zero]
  constructor
  · intro h
    have hc : ∀ p, cross ω p = cross j.dx.w p := by
      intro p
      have h1 := Verif.Props.Sim.vd_unique (h p) (hd p)
      have h2 := congrArg j.x.r.rotp h1
      rwa [rotp_rota _ hj, rotp_rota _ hj] at h2
    have h0 := hc ![1, 0, 0]
    have h1 := hc ![0, 1, 0]
    have a := congrFun h0 1
    have b := congrFun h0 2
    have d := congrFun h1 2
    simp [cross_1, cross_2] at a b d
    unfold imuGyro
    apply vec_ext <;> assumption
  · rintro rfl
    exact hd

open Verif.Model.Sim in
/-- A step of the car with the torques its controller asks for: the velocities grow by the accelerations of
`C100_gives_violated`, and the pose moves by the accelerations of the step before. -/
theorem C100_step_violated (o : Car) (hr : o.wheelRadius ≠ 0) (ha : o.axleWidth ≠ 0) (acc alp dt : ℝ) (j : Jet) :
    let k := carStep o j (invert o acc alp).1 (invert o acc alp).2 dt
    k.dx.v = j.dx.v + dt • ![acc / o.mass, 0, 0] ∧ k.dx.w = j.dx.w + dt • ![0, 0, alp / (2 * o.inertia 2)] ∧
      k.x = j.x.otimes (DQuat.exp ⟨dt • j.dx.w + (dt ^ 2 / 2) • j.d2x.w, dt • j.dx.v + (dt ^ 2 / 2) • j.d2x.v⟩) := by
  intro k
  have e : k = plus j { v := ![acc / o.mass, 0, 0], w := ![0, 0, alp / (2 * o.inertia 2)] } dt := by
    show plus _ _ _ = _
    rw [Verif.Props.Sim.C100_gives_violated o hr ha]
  rw [e]
  refine ⟨rfl, rfl, ?_⟩
  have : dt * dt * 0.5 = dt ^ 2 / 2 := by ring
  simp only [plus, this]

/-! ### C53: transposes of matrices of blocks -/

open Verif.Model.Symb Verif.Spec.Symb Verif.Props.Symb in
/-- A block of the transpose is the transposed block: it is well formed, its shape is the shape of the block with its sides
swapped, and its entries are those of the block, mirrored. -/
theorem C53_block_tr_partial {m n : ℕ} (A : BlkMat m n) (hA : ∀ r c, good (A r c)) (c : Fin n) (r : Fin m) :
    good (blockTr A c r) ∧ (blockTr A c r).shape = (A r c).shape.swap ∧
      ∀ (N : ℕ) (V : Val N) (i j : ℕ), entry (den V (blockTr A c r)) i j = entry (den V (A r c)) j i := by
  obtain ⟨h1, h2, h3⟩ := C53_tr_partial (hA r c)
  refine ⟨h1, h2, fun N V i j => ?_⟩
  show entry (den V (A r c).transpose) i j = _
  rw [h3, entry_transpose]

/-! ### C116: neutral states, and error states as vectors -/

section
open Verif.EkfState Verif.Props.EkfState

variable {τ : Type} {c : Cfg}

/-- The exponential of a part of the error state. -/
noncomputable def expEl : (k : Kind) → Tan k → El k
  | .vec _, d => d
  | .quat, d => Quat.exp d
  | .dquat, d => DQuat.exp d
  | .so3, d => SO3.exp d
  | .se3, d => SE3.exp d

theorem identity_plus : (k : Kind) → (d : Tan k) → plusEl k (El.identity k) d = expEl k d
  | .vec _, d => funext fun _ => zero_add _
  | .quat, d => by
    show Quat.otimes Quat.identity (Quat.exp d) = Quat.exp d
    ext <;> simp [Quat.otimes, Quat.identity]
  | .dquat, d => by
    show DQuat.otimes DQuat.identity (DQuat.exp d) = DQuat.exp d
    apply dext <;> ext <;> simp [DQuat.otimes, DQuat.identity, Quat.otimes, Quat.identity, Quat.add]
  | .so3, d => Matrix.one_mul _
  | .se3, d => by
    show SE3.mul SE3.identity (SE3.exp d) = SE3.exp d
    simp [SE3.mul, SE3.identity]

theorem identity_good : (k : Kind) → Good k (El.identity k)
  | .vec _ => trivial
  | .quat => by simp [Good, El.identity, Quat.identity]
  | .dquat => by simp [Good, El.identity, DQuat.identity, Quat.identity]
  | .so3 => isRot_one
  | .se3 => isRot_one

/-- `setIdentity` keeps the counters and the time and makes every element, in use or not, a neutral one; an error state added
to it gives the exponentials of its parts. -/
theorem C116_identity (fresh x : State τ c) (h : Fits x) (dx : Err c) :
    (setIdentity x).num = x.num ∧ (setIdentity x).t = x.t ∧ Each Good (setIdentity x) ∧
      ∃ y, Verif.EkfState.plus fresh (setIdentity x) dx = some y ∧ (∀ f, y.fixed f = expEl _ (dx.fixed f)) ∧
        ∀ v (i : Fin (c.cap v)), i.1 < x.num v → y.arr v i = expEl _ (dx.buf v i) := by
  refine ⟨rfl, rfl, ⟨fun f => identity_good _, fun v i _ => identity_good _⟩, _, plus_some fresh (setIdentity x) dx h, ?_, ?_⟩
  · intro f
    exact identity_plus _ _
  · intro v i hi
    show (if i.1 < (setIdentity x).num v then _ else _) = _
    rw [if_pos (show i.1 < (setIdentity x).num v from hi)]
    exact identity_plus _ _

theorem tan_add_comm : (k : Kind) → (a b : Tan k) → Tan.add k a b = Tan.add k b a
  | .vec _, _, _ => funext fun _ => add_comm _ _
  | .quat, _, _ => funext fun _ => add_comm _ _
  | .dquat, _, _ => V6.ext (funext fun _ => add_comm _ _) (funext fun _ => add_comm _ _)
  | .so3, _, _ => funext fun _ => add_comm _ _
  | .se3, _, _ => V6.ext (funext fun _ => add_comm _ _) (funext fun _ => add_comm _ _)

theorem tan_add_assoc : (k : Kind) → (a b d : Tan k) → Tan.add k (Tan.add k a b) d = Tan.add k a (Tan.add k b d)
  | .vec _, _, _, _ => funext fun _ => add_assoc _ _ _
  | .quat, _, _, _ => funext fun _ => add_assoc _ _ _
  | .dquat, _, _, _ => V6.ext (funext fun _ => add_assoc _ _ _) (funext fun _ => add_assoc _ _ _)
  | .so3, _, _, _ => funext fun _ => add_assoc _ _ _
  | .se3, _, _, _ => V6.ext (funext fun _ => add_assoc _ _ _) (funext fun _ => add_assoc _ _ _)

theorem tan_add_zero : (k : Kind) → (a : Tan k) → Tan.add k a (Tan.zero k) = a
  | .vec _, _ => funext fun _ => add_zero _
  | .quat, _ => funext fun _ => add_zero _
  | .dquat, _ => V6.ext (funext fun _ => add_zero _) (funext fun _ => add_zero _)
  | .so3, _ => funext fun _ => add_zero _
  | .se3, _ => V6.ext (funext fun _ => add_zero _) (funext fun _ => add_zero _)

theorem tan_smul_add : (k : Kind) → (s : ℝ) → (a b : Tan k) → Tan.smul s k (Tan.add k a b) = Tan.add k (Tan.smul s k a) (Tan.smul s k b)
  | .vec _, _, _, _ => funext fun _ => add_mul _ _ _
  | .quat, _, _, _ => funext fun _ => add_mul _ _ _
  | .dquat, _, _, _ => V6.ext (funext fun _ => add_mul _ _ _) (funext fun _ => add_mul _ _ _)
  | .so3, _, _, _ => funext fun _ => add_mul _ _ _
  | .se3, _, _, _ => V6.ext (funext fun _ => add_mul _ _ _) (funext fun _ => add_mul _ _ _)

theorem tan_add_smul : (k : Kind) → (s t : ℝ) → (a : Tan k) → Tan.smul (s + t) k a = Tan.add k (Tan.smul s k a) (Tan.smul t k a)
  | .vec _, _, _, _ => funext fun _ => mul_add _ _ _
  | .quat, _, _, _ => funext fun _ => mul_add _ _ _
  | .dquat, _, _, _ => V6.ext (funext fun _ => mul_add _ _ _) (funext fun _ => mul_add _ _ _)
  | .so3, _, _, _ => funext fun _ => mul_add _ _ _
  | .se3, _, _, _ => V6.ext (funext fun _ => mul_add _ _ _) (funext fun _ => mul_add _ _ _)

theorem tan_smul_smul : (k : Kind) → (s t : ℝ) → (a : Tan k) → Tan.smul t k (Tan.smul s k a) = Tan.smul (s * t) k a
  | .vec _, _, _, _ => funext fun _ => mul_assoc _ _ _
  | .quat, _, _, _ => funext fun _ => mul_assoc _ _ _
  | .dquat, _, _, _ => V6.ext (funext fun _ => mul_assoc _ _ _) (funext fun _ => mul_assoc _ _ _)
  | .so3, _, _, _ => funext fun _ => mul_assoc _ _ _
  | .se3, _, _, _ => V6.ext (funext fun _ => mul_assoc _ _ _) (funext fun _ => mul_assoc _ _ _)

theorem tan_one : (k : Kind) → (a : Tan k) → Tan.smul 1 k a = a
  | .vec _, _ => funext fun _ => mul_one _
  | .quat, _ => funext fun _ => mul_one _
  | .dquat, _ => V6.ext (funext fun _ => mul_one _) (funext fun _ => mul_one _)
  | .so3, _ => funext fun _ => mul_one _
  | .se3, _ => V6.ext (funext fun _ => mul_one _) (funext fun _ => mul_one _)

theorem tan_zero_smul : (k : Kind) → (a : Tan k) → Tan.smul 0 k a = Tan.zero k
  | .vec _, _ => funext fun _ => mul_zero _
  | .quat, _ => funext fun _ => mul_zero _
  | .dquat, _ => V6.ext (funext fun _ => mul_zero _) (funext fun _ => mul_zero _)
  | .so3, _ => funext fun _ => mul_zero _
  | .se3, _ => V6.ext (funext fun _ => mul_zero _) (funext fun _ => mul_zero _)

theorem err_ext {a b : Err c} (h : ∀ f, a.fixed f = b.fixed f) (h' : ∀ v i, a.buf v i = b.buf v i) : a = b := by
  cases a; cases b
  congr
  · exact funext h
  · exact funext fun v => funext (h' v)

/-- Error states with `+`, `*` and `setZero` are a vector space, for every configuration. -/
theorem C116_vectors (a b d : Err c) (s t : ℝ) :
    a.add b = b.add a ∧ (a.add b).add d = a.add (b.add d) ∧ a.add Err.zero = a ∧ a.add (a.scale (-1)) = Err.zero ∧
      (a.add b).scale s = (a.scale s).add (b.scale s) ∧ a.scale (s + t) = (a.scale s).add (a.scale t) ∧
      (a.scale s).scale t = a.scale (s * t) ∧ a.scale 1 = a := by
  have neg : ∀ k (x : Tan k), Tan.add k x (Tan.smul (-1) k x) = Tan.zero k := by
    intro k x
    have h := tan_add_smul k 1 (-1) x
    rw [tan_one] at h
    rw [← h]
    norm_num
    exact tan_zero_smul k x
  refine ⟨err_ext (fun _ => ?_) fun _ _ => ?_, err_ext (fun _ => ?_) fun _ _ => ?_, err_ext (fun _ => ?_) fun _ _ => ?_,
    err_ext (fun _ => ?_) fun _ _ => ?_, err_ext (fun _ => ?_) fun _ _ => ?_, err_ext (fun _ => ?_) fun _ _ => ?_,
    err_ext (fun _ => ?_) fun _ _ => ?_, err_ext (fun _ => ?_) fun _ _ => ?_⟩
  · exact tan_add_comm _ _ _
  · exact tan_add_comm _ _ _
  · exact tan_add_assoc _ _ _ _
  · exact tan_add_assoc _ _ _ _
  · exact tan_add_zero _ _
  · exact tan_add_zero _ _
  · exact neg _ _
  · exact neg _ _
  · exact tan_smul_add _ _ _ _
  · exact tan_smul_add _ _ _ _
  · exact tan_add_smul _ _ _ _
  · exact tan_add_smul _ _ _ _
  · exact tan_smul_smul _ _ _ _
  · exact tan_smul_smul _ _ _ _
  · exact tan_one _ _
  · exact tan_one _ _

/-- Two steps with error states add up where the states are vectors: `(x + a) + b = x + (a + b)`. -/
theorem C116_steps (n : ℕ) (x : El (.vec n)) (a b : Tan (.vec n)) :
    plusEl (.vec n) (plusEl (.vec n) x a) b = plusEl (.vec n) x (Tan.add (.vec n) a b) :=
  funext fun _ => add_assoc _ _ _

end

/-! ### C117: fresh quaternions -/

open Verif.QuatMem Verif.Props.QuatMem in
/-- A quaternion made of four numbers has them as its value, writes to nothing but its own buffer and does not depend on any
other memory afterwards. -/
theorem C117_make (m : Mem) (b : ℕ) (q : Quat) (hb : Alive m b 4) :
    ∃ m' o, make m b q = some (m', o) ∧ Only m m' b 4 ∧ o.val m' = some q ∧ ∀ m'', SameAt m' m'' b 4 → o.val m'' = some q := by
  refine ⟨alloc4 m b q, ⟨b, b⟩, ?_, alloc_only m b q, alloc_val m b q, fun m'' h => ?_⟩
  · unfold make
    rw [wr4_some hb]
    rfl
  · exact (rd4_same h).trans (alloc_val m b q)

/-! ### C118: the words the receivers' parsers look at -/

section
open Verif.Gather Verif.Utc

/-- Byte `4 w + j` of the words is byte `j` of word `w`, the lowest first. -/
theorem C118_bytes (ws : List Nat) : (bytesOf ws).length = 4 * ws.length ∧
    ∀ w j, j < 4 → (bytesOf ws)[4 * w + j]? = ws[w]?.map fun x => UInt8.ofNat (x / 2 ^ (8 * j) % 256) := by
  induction ws with
  | nil => exact ⟨rfl, fun w j _ => rfl⟩
  | cons a ws ih =>
    have e : bytesOf (a :: ws) = (List.range 4).map (fun j => UInt8.ofNat (a / 2 ^ (8 * j))) ++ bytesOf ws := by
      simp [bytesOf]
    refine ⟨by rw [e, List.length_append, ih.1]; simp; omega, fun w j hj => ?_⟩
    rw [e]
    cases w with
    | zero =>
      rw [List.getElem?_append_left (by simpa using hj)]
      simp only [Nat.mul_zero, Nat.zero_add, List.getElem?_map, List.getElem?_range hj, Option.map_some, List.getElem?_cons_zero]
      congr 1
      apply UInt8.toNat_inj.1
      simp
    | succ w =>
      rw [List.getElem?_append_right (by simp; omega), List.getElem?_cons_succ, ← ih.2 w j hj]
      congr 1
      simp
      omega

/-- GPS and GLONASS: what a subframe does depends on the words received only, and too few words do nothing. -/
theorem C118_received (f : Nat → Gps.Eph) (g : Nat → Glonass.Eph) (m m' : Sfrbx) (hn : m.numWords = m'.numWords)
    (hw : ∀ i, i < m.numWords.toNat → m.dwrd[i]? = m'.dwrd[i]?) :
    (gpsKind f).parse m = (gpsKind f).parse m' ∧ (gloKind g).parse m = (gloKind g).parse m' ∧
      (m.numWords.toNat < 4 → ∀ e, (gloKind g).parse m e = some (false, e)) := by
  have h : m.dwrd.take m.numWords.toNat = m'.dwrd.take m'.numWords.toNat := by
    rw [← hn]
    apply List.ext_getElem?
    intro i
    rw [List.getElem?_take, List.getElem?_take]
    split
    · rename_i hi
      exact hw i hi
    · rfl
  refine ⟨?_, ?_, fun hs e => ?_⟩
  · funext e
    show Gps.parse (m.dwrd.take m.numWords.toNat) e = Gps.parse (m'.dwrd.take m'.numWords.toNat) e
    rw [h]
  · funext e
    show Glonass.parse (bytesOf (m.dwrd.take m.numWords.toNat)) e = Glonass.parse (bytesOf (m'.dwrd.take m'.numWords.toNat)) e
    rw [h]
  · show Glonass.parse (bytesOf (m.dwrd.take m.numWords.toNat)) e = _
    have : (bytesOf (m.dwrd.take m.numWords.toNat)).length < 16 := by
      rw [(C118_bytes _).1, List.length_take]
      omega
    unfold Glonass.parse
    rw [if_pos this]

/-- The words with the bytes of a list. -/
def wordsOf : List UInt8 → List Nat
  | a :: b :: c :: d :: l => (a.toNat + 2 ^ 8 * b.toNat + 2 ^ 16 * c.toNat + 2 ^ 24 * d.toNat) :: wordsOf l
  | _ => []

/-- Galileo: a subframe of which no word was received is decoded from what the words of the one before left in the buffer; an
ephemeris of satellite 9 is filled with numbers that were sent by another satellite. -/
theorem C118_stale_violated (f : Nat → Galileo.Eph) :
    (wordsOf Galileo.p2 ++ [0, 0]).length = 10 ∧
    ((galKind f).parse ⟨2, 9, 0, wordsOf Galileo.p2 ++ [0, 0]⟩ Galileo.e0).map (fun r => (r.2.w2.omega0, r.2.w2.iod)) =
      some (-5, 300) ∧
    ((galKind f).parse ⟨2, 9, 0, List.replicate 10 0⟩ Galileo.e0).map (fun r => (r.2.w2.omega0, r.2.w2.iod)) ≠ some (-5, 300) := by
  refine ⟨by decide +kernel, ?_, ?_⟩
  · show (Galileo.parse (bytesOf (wordsOf Galileo.p2 ++ [0, 0])) Galileo.e0).map (fun r => (r.2.w2.omega0, r.2.w2.iod)) = _
    decide +kernel
  · show (Galileo.parse (bytesOf (List.replicate 10 0)) Galileo.e0).map (fun r => (r.2.w2.omega0, r.2.w2.iod)) ≠ _
    decide +kernel

/-- A GLONASS string of which four words were received is decoded, whatever else is in the buffer. -/
example : ((gloKind fun _ => Glonass.e0).parse ⟨6, 3, 4, wordsOf Glonass.g4 ++ [7, 7, 7, 7, 7, 7]⟩ Glonass.e0).map
    (fun r => r.1) = (Glonass.parse Glonass.g4 Glonass.e0).map (fun r => r.1) := by decide +kernel

end

/-! ### C125: the themes -/

open Verif.Progress in
/-- Each of the five themes shows a finished task as a bar full of its last symbol. -/
theorem C125_themes (width total : ℤ) (ht : 0 < total) (hw : 0 ≤ width) :
    cells line width total total = some (List.replicate width.toNat "═") ∧
    cells circle width total total = some (List.replicate width.toNat "#") ∧
    cells braille width total total = some (List.replicate width.toNat "⣿") ∧
    cells brailleSpin width total total = some (List.replicate width.toNat "⠿") ∧
    cells solid width total total = some (List.replicate width.toNat "█") :=
  ⟨Verif.Props.Progress.C125_full line (by decide) width total ht hw,
    Verif.Props.Progress.C125_full circle (by decide) width total ht hw,
    Verif.Props.Progress.C125_full braille (by decide) width total ht hw,
    Verif.Props.Progress.C125_full brailleSpin (by decide) width total ht hw,
    Verif.Props.Progress.C125_full solid (by decide) width total ht hw⟩

section Speed
open Verif.Progress

/-- The calls at increasing times after `a`, with data that run at the speed `f` from the start `s` on. -/
def AtSpeed (f t0 : ℚ) (s : ℤ) : ℤ → List (ℤ × ℤ × Option ℚ) → Prop
  | _, [] => True
  | a, (now, _, t) :: cs => a < now ∧ t = some (t0 + f * (((now - s : ℤ) : ℚ) / 1000)) ∧ AtSpeed f t0 s now cs

theorem print_rate (b : Bar) (now c : ℤ) (t : ℚ) (s last : ℤ) (t0 r : ℚ) (hs : b.started = some (s, last))
    (h0 : b.tStart = some t0) (hr : b.rate = .fin r) (he : ((now - s : ℤ) : ℚ) / 1000 ≠ b.elapsedLast)
    (b' : Bar) (l : Option Line) (h : print b now c (some t) = some (b', l)) :
    (l = none ∧ b' = b) ∨
    (∃ x, l = some x ∧
      x.rate = some (.fin (9 / 10 * r + 1 / 10 * ((t - b.tLast) / (((now - s : ℤ) : ℚ) / 1000 - b.elapsedLast)))) ∧
      b'.started = some (s, now) ∧ b'.tStart = some t0 ∧ b'.tLast = t ∧ b'.elapsedLast = ((now - s : ℤ) : ℚ) / 1000 ∧
      some b'.rate = x.rate) := by
  have hb : b.start now (some t) = b := by unfold Bar.start; rw [hs]
  unfold print at h
  simp only [hb, hs] at h
  split at h
  · split at h
    · rw [h0] at h
      simp only [Option.some.injEq, Prod.mk.injEq] at h
      obtain ⟨rfl, rfl⟩ := h
      right
      have hn := Progress.C125_rate b t _ r hr he
      exact ⟨_, rfl, by simp only [hn], rfl, rfl, rfl, rfl, rfl⟩
    · cases h
  · simp only [Option.some.injEq, Prod.mk.injEq] at h
    left
    exact ⟨h.2.symm, h.1.symm⟩

theorem run_rate (f t0 : ℚ) (s : ℤ) : ∀ (cs : List (ℤ × ℤ × Option ℚ)) (b b' : Bar) (ls : List (ℤ × ℤ × Line))
    (a last e' : ℤ) (e : ℚ), b.started = some (s, last) → b.tStart = some t0 → b.elapsedLast = ((e' - s : ℤ) : ℚ) / 1000 →
    e' ≤ a → b.tLast = t0 + f * b.elapsedLast → b.rate = .fin (f + e) → AtSpeed f t0 s a cs →
    runBar b cs = some (b', ls) → ∀ k (hk : k < ls.length), (ls[k]).2.2.rate = some (.fin (f + e * (9 / 10) ^ (k + 1))) := by
  intro cs
  induction cs with
  | nil =>
    intro b b' ls a last e' e _ _ _ _ _ _ _ h k hk
    simp only [runBar, Option.some.injEq, Prod.mk.injEq] at h
    obtain ⟨_, rfl⟩ := h
    simp at hk
  | cons x cs ih =>
    intro b b' ls a last e' e hs h0 hel hea htl hr hat h k hk
    obtain ⟨now, c, t⟩ := x
    obtain ⟨ha, rfl, hat⟩ := hat
    unfold runBar at h
    have hne : ((now - s : ℤ) : ℚ) / 1000 ≠ b.elapsedLast := by
      rw [hel]
      intro hc
      have h2 : ((now - s : ℤ) : ℚ) = ((e' - s : ℤ) : ℚ) := by linarith
      have h3 : now - s = e' - s := by exact_mod_cast h2
      omega
    cases hp : print b now c (some (t0 + f * (((now - s : ℤ) : ℚ) / 1000))) with
    | none => rw [hp] at h; cases h
    | some p =>
      obtain ⟨b1, l⟩ := p
      rw [hp] at h
      simp only at h
      cases hq : runBar b1 cs with
      | none => rw [hq] at h; cases h
      | some q =>
        obtain ⟨b2, ls'⟩ := q
        rw [hq] at h
        simp only [Option.some.injEq, Prod.mk.injEq] at h
        obtain ⟨rfl, rfl⟩ := h
        rcases print_rate b now c _ s last t0 (f + e) hs h0 hr hne b1 l hp with ⟨rfl, rfl⟩ | ⟨x, rfl, hx, g1, g2, g3, g4, g5⟩
        · exact ih b1 b2 ls' now last e' e hs h0 hel (by omega) htl hr hat hq k (by simpa using hk)
        · have hx' : x.rate = some (.fin (f + e * (9 / 10))) := by
            rw [hx, htl]
            congr 2
            have hd : ((now - s : ℤ) : ℚ) / 1000 - b.elapsedLast ≠ 0 := sub_ne_zero.2 hne
            rw [show t0 + f * (((now - s : ℤ) : ℚ) / 1000) - (t0 + f * b.elapsedLast)
              = f * (((now - s : ℤ) : ℚ) / 1000 - b.elapsedLast) by ring, mul_div_assoc, div_self hd]
            ring
          have hih := ih b1 b2 ls' now now now (e * (9 / 10)) g1 g2 g4 le_rfl (by rw [g3, g4])
            (by rw [hx'] at g5; exact Option.some.inj g5) hat hq
          cases k with
          | zero => simpa using hx'
          | succ k =>
            have := hih k (by simpa using hk)
            simp only [Option.map_some, Option.toList_some, List.singleton_append, List.getElem_cons_succ]
            rw [this]
            congr 2
            ring

/-- With data that run at a constant speed, the rate shown in the `k`-th line differs from the speed by a part that
shrinks by a tenth with every line, whichever calls print a line. -/
theorem C125_speed (f t0 : ℚ) (s c : ℤ) (b b' : Bar) (cs : List (ℤ × ℤ × Option ℚ)) (ls : List (ℤ × ℤ × Line))
    (hst : b.started = none) (hc : c ≠ b.total) (hat : AtSpeed f t0 s s cs)
    (h : runBar b ((s, c, some t0) :: cs) = some (b', ls)) (k : ℕ) (hk : k < ls.length) :
    (ls[k]).2.2.rate = some (.fin (f + (1 - f) * (9 / 10) ^ (k + 1))) := by
  have hp : print b s c (some t0) = some (b.start s (some t0), none) := by
    have ht : (b.start s (some t0)).total = b.total := by unfold Bar.start; rw [hst]
    have hs : (b.start s (some t0)).started = some (s, s) := by unfold Bar.start; rw [hst]
    unfold print
    simp only [hs, ht]
    rw [if_neg (by push Not; exact ⟨by omega, hc⟩)]
  unfold runBar at h
  rw [hp] at h
  simp only at h
  cases hq : runBar (b.start s (some t0)) cs with
  | none => rw [hq] at h; cases h
  | some q =>
    obtain ⟨b2, ls'⟩ := q
    rw [hq] at h
    simp only [Option.some.injEq, Prod.mk.injEq] at h
    obtain ⟨rfl, rfl⟩ := h
    have hb : b.start s (some t0) = { b with started := some (s, s), tStart := some t0, elapsedLast := 0, tLast := t0, rate := .fin 1 } := by
      unfold Bar.start; rw [hst]; rfl
    exact run_rate f t0 s cs (b.start s (some t0)) b2 ls' s s s (1 - f) (by rw [hb]) (by rw [hb]) (by rw [hb]; simp) le_rfl
      (by rw [hb]; simp) (by rw [hb]; simp) hat hq k (by simpa using hk)

/-- Calls that run twice as fast as the clock. -/
example : AtSpeed 2 5 0 0 [(40, 20, some (5 + 2 * (40 / 1000))), (2000, 1000, some 9)] := by
  refine ⟨by norm_num, by norm_num, by norm_num, by norm_num, trivial⟩

end Speed

/-! ### C124: braces -/

section Braces
open Verif.Messages

/-- A text in which every brace is doubled. -/
def escape : List Char → List Char
  | [] => []
  | c :: r => if c = '{' ∨ c = '}' then c :: c :: escape r else c :: escape r

/-- Formatting an escaped text prints the text, whatever the values are. -/
theorem C124_escape (t : List Char) (vs : List (List Char)) : format (escape t) vs = .ok t := by
  induction t with
  | nil => simp [escape, format.eq_def]
  | cons c r ih =>
    unfold escape
    by_cases h1 : c = '{'
    · subst h1
      rw [if_pos (Or.inl rfl)]
      simp [format, ih, Out.pre]
    · by_cases h2 : c = '}'
      · subst h2
        rw [if_pos (Or.inr rfl)]
        simp [format, ih, Out.pre]
      · rw [if_neg (by tauto), Messages.format_char c _ vs h1 h2, ih]
        simp [Out.pre]

end Braces

/-! ### C110: names used twice -/

section Names
open Verif.Log Verif.Log.Spec View Number

theorem get_set : (es : Entries) → (q : String) → (w : Yaml) → (k : String) →
    (es.set q w).get k = if k = q then some w else es.get k
  | .nil, q, w, k => by
    rw [Entries.set, Entries.get, Entries.get]
    by_cases h : q = k
    · rw [if_pos h, if_pos h.symm]
    · rw [if_neg h, if_neg (fun h' => h h'.symm), Entries.get]
  | .cons a v es, q, w, k => by
    rw [Entries.set]
    by_cases ha : a = q
    · rw [if_pos ha, Entries.get, Entries.get]
      by_cases h : a = k
      · rw [if_pos h, if_pos (h ▸ ha)]
      · rw [if_neg h, if_neg h, if_neg (fun h' => h (ha.trans h'.symm))]
    · rw [if_neg ha, Entries.get, Entries.get, get_set es q w k]
      by_cases h : a = k
      · rw [if_pos h, if_pos h, if_neg (fun h' => ha (h.trans h'))]
      · rw [if_neg h, if_neg h]

theorem fill_get : ∀ (cs : List Col) (es es' : Entries), fillFormat es cs = some es' → ∀ k,
    es'.get k = (((cs.reverse.find? fun c => c.name = k).map fun c => c.header.fmt).or (es.get k)) := by
  intro cs
  induction cs with
  | nil => intro es es' h k; simp only [fillFormat, Option.some.injEq] at h; subst h; simp
  | cons c cs ih =>
    intro es es' h k
    unfold fillFormat at h
    split_ifs at h
    rw [ih _ _ h k, get_set, List.reverse_cons, List.find?_append]
    by_cases hc : k = c.name
    · cases hf : cs.reverse.find? (fun c => c.name = k) <;> simp [hc, eq_comm]
    · have hc' : ¬ c.name = k := fun h => hc h.symm
      cases hf : cs.reverse.find? (fun c => c.name = k) <;> simp [hc, hc']

/-- The header of a stream describes under every name the last of the values with that name, and under `t` the stamp. -/
theorem C110_header (cs : List Col) (es : Entries) (h : makeFormat cs = some (.map es)) (k : String) :
    es.get k = if k = "t" then some (Header.fmt Stamp) else
      (cs.reverse.find? fun c => c.name = k).map fun c => c.header.fmt := by
  unfold makeFormat at h
  rw [Option.map_eq_some_iff] at h
  obtain ⟨es', h, he⟩ := h
  have : es' = es := by injection he
  subst this
  have hno : ∀ (cs : List Col) es es', fillFormat es cs = some es' → ∀ c ∈ cs, c.name ≠ "t" := by
    intro cs
    induction cs with
    | nil => intro _ _ _ c hc; cases hc
    | cons a cs ih =>
      intro es es' h c hc
      unfold fillFormat at h
      split_ifs at h with hn
      rcases List.mem_cons.1 hc with rfl | hc
      · exact hn
      · exact ih _ _ h c hc
  rw [fill_get cs _ _ h k, get_set]
  by_cases hk : k = "t"
  · have : cs.reverse.find? (fun c => c.name = k) = none := by
      rw [List.find?_eq_none]
      intro c hc
      have := hno cs _ _ h c (List.mem_reverse.1 hc)
      simp [hk, this]
    rw [this, if_pos hk, if_pos hk]
    rfl
  · rw [if_neg hk, if_neg hk]
    simp [Entries.get]

end Names

end Verif.Props.Rest
