import Verif.Model.Jet
import Verif.Props.DQuat

/-!
C155: equality of rotations, motions and motions with derivatives.
-/

namespace Verif.Props.Jet

open Verif.Jet Verif.Model.Lie Verif.Spec.Lie Verif.Props.Quat Verif.Props.DQuat

/-- The same motion: every point is taken to the same place. -/
def SameMotion (p q : DQuat) : Prop := ∀ v : Fin 3 → ℝ, p.transforma v = q.transforma v

theorem quatEq_iff (p q : Quat) : quatEq p q = true ↔ p = q := by
  cases p; cases q
  simp [quatEq, and_assoc]

theorem dquatEq_iff (p q : DQuat) : dquatEq p q = true ↔ p = q := by
  cases p; cases q
  simp [dquatEq, quatEq_iff]

theorem tangentEq_iff (a b : V6) : tangentEq a b = true ↔ a = b := by
  cases a; cases b
  simp [tangentEq, funext_iff]

/-- The same numbers with the other sign. -/
def opp (p : DQuat) : DQuat := ⟨Quat.smul (-1) p.r, Quat.smul (-1) p.d⟩

theorem opp_R (q : Quat) : (Quat.smul (-1) q).R = q.R := by
  unfold Quat.R Quat.smul
  ext i j
  fin_cases i <;> fin_cases j <;> simp

theorem opp_unit {p : DQuat} (h : UnitD p) : UnitD (opp p) := by
  obtain ⟨h1, h2⟩ := h
  refine ⟨?_, ?_⟩
  · simp only [UnitQ, opp, Quat.smul] at h1 ⊢
    linarith
  · simp only [opp, Quat.smul]
    linarith

theorem opp_translation (p : DQuat) : (opp p).translation = p.translation := by
  unfold DQuat.translation opp
  congr 1
  unfold Quat.otimes Quat.inverse Quat.smul Quat.bar
  simp

theorem same_opp {p : DQuat} (h : UnitD p) : SameMotion p (opp p) := by
  intro v
  rw [(C46_transform p h).2.2.2.2 v, (C46_transform _ (opp_unit h)).2.2.2.2 v, opp_translation, show (opp p).r = Quat.smul (-1) p.r from rfl,
    opp_R]

/-- **C155.**  Two unit dual quaternions are the same motion if and only if their eight numbers are equal or opposite. -/
theorem C155_motion (p q : DQuat) (hp : UnitD p) (hq : UnitD q) : SameMotion p q ↔ p = q ∨ p = opp q := by
  constructor
  · intro h
    have hv := fun v => (C46_transform p hp).2.2.2.2 v
    have hw := fun v => (C46_transform q hq).2.2.2.2 v
    have ht : p.translation = q.translation := by
      have := h 0
      rwa [hv, hw, Matrix.mulVec_zero, Matrix.mulVec_zero, zero_add, zero_add] at this
    have hR : p.r.R = q.r.R := by
      have e : p.r.R.transpose = q.r.R.transpose := by
        apply Matrix.ext_of_mulVec_single
        intro i
        have := h (Pi.single i 1)
        rw [hv, hw, ht] at this
        exact add_right_cancel this
      have := congrArg Matrix.transpose e
      rwa [Matrix.transpose_transpose, Matrix.transpose_transpose] at this
    have ep := (C46_translation p.r p.translation p hp.1 hp).2.2.2.1
    have eq := (C46_translation q.r q.translation q hq.1 hq).2.2.2.1
    have eo := (C46_translation (opp q).r (opp q).translation (opp q) (opp_unit hq).1 (opp_unit hq)).2.2.2.1
    rcases R_inj hp.1 hq.1 hR with hr | hr
    · left
      rw [← ep, ← eq, hr, ht]
    · right
      rw [← ep, ← eo, opp_translation, ht, hr]
      rfl
  · rintro (rfl | rfl)
    · exact fun v => rfl
    · exact fun v => (same_opp hq v).symm

/-- The property: `==` tells whether two motions are the same. -/
def C155_statement : Prop := ∀ p q : DQuat, UnitD p → UnitD q → (dquatEq p q = true ↔ SameMotion p q)

/-- **C155, violated.**  To every motion there is one that is the same and not `==`. -/
theorem C155_sign_violated (p : DQuat) (h : UnitD p) : UnitD (opp p) ∧ SameMotion p (opp p) ∧ dquatEq p (opp p) = false := by
  refine ⟨opp_unit h, same_opp h, ?_⟩
  rw [Bool.eq_false_iff, Ne, dquatEq_iff]
  intro e
  have h1 := h.1
  have hr : p.r = Quat.smul (-1) p.r := congrArg DQuat.r e
  have a := congrArg Quat.w hr
  have b := congrArg Quat.x hr
  have c := congrArg Quat.y hr
  have d := congrArg Quat.z hr
  simp only [Quat.smul] at a b c d
  simp only [UnitQ] at h1
  rw [show p.r.w = 0 by linarith, show p.r.x = 0 by linarith, show p.r.y = 0 by linarith, show p.r.z = 0 by linarith] at h1
  norm_num at h1

theorem C155_statement_false : ¬ C155_statement := by
  intro h
  have hu : UnitD DQuat.identity := (C46_group _ _ DQuat.identity
    (show UnitD ⟨⟨1, 0, 0, 0⟩, ⟨0, 0, 0, 0⟩⟩ by constructor <;> simp [UnitQ])
    (show UnitD ⟨⟨1, 0, 0, 0⟩, ⟨0, 0, 0, 0⟩⟩ by constructor <;> simp [UnitQ])).2.2.1
  obtain ⟨a, b, c⟩ := C155_sign_violated _ hu
  have := (h _ _ hu a).2 b
  rw [c] at this
  cases this

/-- **C155, restricted.**  What is `==` is the same motion; among motions with a positive scalar part `==` tells exactly whether they are the
same.  So it does for jets: the same motion and the same derivatives. -/
theorem C155_equal_partial (p q : DQuat) (hp : UnitD p) (hq : UnitD q) :
    (dquatEq p q = true → SameMotion p q) ∧
    (0 < p.r.w → 0 < q.r.w → (dquatEq p q = true ↔ SameMotion p q) ∧
      ∀ a b c d : V6, (jetEq ⟨p, a⟩ ⟨q, b⟩ = true ↔ SameMotion p q ∧ a = b) ∧
        (twoJetEq ⟨p, a, c⟩ ⟨q, b, d⟩ = true ↔ SameMotion p q ∧ a = b ∧ c = d)) := by
  refine ⟨fun h => ?_, fun h1 h2 => ?_⟩
  · rw [dquatEq_iff] at h
    subst h
    exact fun v => rfl
  · have key : p = q ↔ SameMotion p q := by
      rw [C155_motion p q hp hq]
      constructor
      · exact Or.inl
      · rintro (h | h)
        · exact h
        · have := congrArg (fun x : DQuat => x.r.w) h
          simp only [opp, Quat.smul] at this
          linarith
    refine ⟨by rw [dquatEq_iff, key], fun a b c d => ⟨?_, ?_⟩⟩
    · rw [← key]
      simp [jetEq, dquatEq_iff, tangentEq_iff]
    · rw [← key]
      simp [twoJetEq, dquatEq_iff, tangentEq_iff, and_assoc]

/-- **C155.**  The identity of jets stays where it is: every point is fixed, and the derivatives are zero. -/
theorem C155_identity : (∀ v, jetIdentity.x.transforma v = v) ∧ (∀ i, jetIdentity.dx.w i = 0 ∧ jetIdentity.dx.v i = 0) ∧
    (∀ v, twoJetIdentity.x.transforma v = v) ∧
    ∀ i, twoJetIdentity.dx.w i = 0 ∧ twoJetIdentity.dx.v i = 0 ∧ twoJetIdentity.d2x.w i = 0 ∧ twoJetIdentity.d2x.v i = 0 := by
  have h : ∀ v, DQuat.identity.transforma v = v := by
    intro v
    funext i
    fin_cases i <;>
      (simp [DQuat.identity, DQuat.transforma, DQuat.translation, Quat.identity, Quat.rota, Quat.bar, Quat.otimes, Quat.inverse, cross]; rfl)
  exact ⟨h, fun i => ⟨rfl, rfl⟩, h, fun i => ⟨rfl, rfl, rfl, rfl⟩⟩

/-- Half a turn about `x`, and a metre along it: a motion other than the identity. -/
example : UnitD (DQuat.ofQT ⟨0, 1, 0, 0⟩ ![1, 0, 0]) :=
  (C46_translation ⟨0, 1, 0, 0⟩ ![1, 0, 0] (DQuat.ofQT ⟨0, 1, 0, 0⟩ ![1, 0, 0]) (by norm_num [UnitQ])
    ⟨by norm_num [UnitQ, DQuat.ofQT], by norm_num [DQuat.ofQT, Quat.smul, Quat.otimes, Quat.pure]⟩).1

end Verif.Props.Jet
