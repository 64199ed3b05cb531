import Verif.Props.EkfGenFull

/-!
Configurations for which no filter is generated.
-/

namespace Verif.Props.EkfGen

open Verif.Model.Symb Verif.Model.Symb.Blk Verif.Model.EkfGen Verif.Spec.Symb Verif.Spec.EkfGen Verif.Lemmas.Symb
open Verif.Props.Symb

/-- A state of one dimension, `x' = a x + b u`. -/
def oneState : Cfg where
  n := 0
  m := 0
  dim := ![.num 1]
  inp := ![.num 3]
  fx _ _ := true
  fu _ _ := true

/-- A state of variable size that depends on itself and on another state, which has no dynamics. -/
def coupled : Cfg where
  n := 1
  m := 0
  dim := ![.num 3, .var 0]
  inp := ![.num 3]
  fx r c := table [[], [0, 1]] r c
  fu r c := table [[0], [0]] r c

/-- The same states without the dependence on the other state. -/
def uncoupled : Cfg where
  n := 1
  m := 0
  dim := ![.num 3, .var 0]
  inp := ![.num 3]
  fx r c := table [[], [1]] r c
  fu r c := table [[0], [0]] r c

/-- A measurement of a configuration that uses no state. -/
def noStates (C : Cfg) (d : Dim) : MCfg C := ⟨d, fun _ => false⟩

/-- Every configuration gets its propagation, and every measurement its update. -/
def C108_statement : Prop :=
  (∀ C : Cfg, ∃ q f, (propagate C (code q) f).isSome = true) ∧
    ∀ (C : Cfg) (D : MCfg C), ∃ q f, (measUpdate (code q) f D).isSome = true

theorem commitNew_none {m n : ℕ} {R : Rules} {f : ℕ} {k : Kind} {X : OMat m n} {r : Fin m} {c : Fin n}
    (h : ∀ e, X r c = some e → commit1 R f k r c e = none) :
    ∀ l : List (Fin m × Fin n), (r, c) ∈ l → commitNew R f k X l = none
  | [], hl => absurd hl List.not_mem_nil
  | (r', c') :: l, hl => by
    unfold commitNew
    rcases List.mem_cons.mp hl with e | e
    · obtain ⟨rfl, rfl⟩ := Prod.mk.inj e
      cases hx : X r c with
      | none => rfl
      | some x => simp [h x hx]
    · rw [commitNew_none h l e]
      cases X r' c' with
      | none => rfl
      | some x => cases hx : commit1 R f k r' c' x <;> simp [hx]

/-- A state of one dimension with dynamics of its own: the product of two blocks of one element has no factor that is not a
scalar, and the list of those is taken for not empty. -/
theorem C108_one_violated (q f : ℕ) : propagate oneState (code q) f = none := by
  have h : abarM oneState 0 0 = none := by rfl
  unfold propagate
  rw [commitNew_none (r := 0) (c := 0) (fun e he => by rw [h] at he; exact absurd he (by simp)) _ (mem_places 0 0)]
  rfl

/-- A block of the state of variable size: `dt A₁₀ + dt² A₁₁ A₁₀ / 2` has a last factor in common, and taking it out of the first
term asks for an identity matrix of variable size without its largest size. -/
theorem C108_coupled_violated (q f : ℕ) : propagate coupled (code q) f = none := by
  have h : ∀ e, abarM coupled 1 0 = some e → commit1 (code q) f .abar 1 0 e = none := by
    intro e he
    have he' : e = (abarM coupled 1 0).getD (c0 (.num 1) (.num 1)) := by rw [he]; rfl
    subst he'
    match q, f with
    | 0, 0 => rfl
    | 0, 1 => rfl
    | 0, 2 => rfl
    | 0, f + 3 => rfl
    | q + 1, 0 => rfl
    | q + 1, 1 => rfl
    | q + 1, 2 => rfl
    | q + 1, 3 => rfl
    | q + 1, 4 => rfl
    | q + 1, 5 => rfl
    | q + 1, 6 => rfl
    | q + 1, 7 => rfl
    | q + 1, 8 => rfl
    | q + 1, f + 9 => rfl
  unfold propagate
  rw [commitNew_none (r := 1) (c := 0) h _ (mem_places 1 0)]
  rfl

/-- A measurement of no state: the innovation has no block
to which the noise could be added. -/
theorem C108_no_states_violated (q f : ℕ) : measUpdate (code q) f (noStates uncoupled (.num 3)) = none := by
  have h1 : ∀ n, commitNew (code q) n .pht (phtM (noStates uncoupled (.num 3))) (places (uncoupled.n + 1) 1) = some [] := fun n => rfl
  have h2 : ∀ n, commitNew (code q) n .hpht (hphtM (noStates uncoupled (.num 3))) (places 1 1) = some [] := fun n => rfl
  have h3 : ∀ n, adjust (code q) n false (newM .hpht (hphtM (noStates uncoupled (.num 3)))) (noiseM (noStates uncoupled (.num 3)))
    (upper 1 1) = none := fun n => rfl
  unfold measUpdate
  rw [h1, h2, h3]
  rfl

theorem C108_statement_false : ¬ C108_statement := by
  rintro ⟨h, -⟩
  obtain ⟨q, f, h⟩ := h oneState
  rw [C108_one_violated] at h
  exact absurd h (by simp)

/-- What is left: the configurations of the project get their code, and so does the one with the states decoupled. -/
theorem C108_accepted_partial :
    (propagate rtk (code 24) 24).isSome = true ∧ (measUpdate (code 24) 24 rtkPointPos).isSome = true ∧
      (measUpdate (code 24) 24 rtkObs).isSome = true ∧ (measUpdate (code 24) 24 rtkFixAndHold).isSome = true ∧
        (propagate sample (code 24) 24).isSome = true ∧ (propagate uncoupled (code 24) 24).isSome = true := by
  obtain ⟨_, h1, -⟩ := C107_rtk_propagate
  obtain ⟨_, h2, -⟩ := C107_rtk_pointPos
  obtain ⟨_, h3, -⟩ := C107_rtk_obs
  obtain ⟨_, h4, -⟩ := C107_rtk_fixAndHold
  obtain ⟨_, h5, -⟩ := C107_sample_propagate
  rw [h1, h2, h3, h4, h5]
  exact ⟨rfl, rfl, rfl, rfl, rfl, by decide +kernel⟩

end Verif.Props.EkfGen
