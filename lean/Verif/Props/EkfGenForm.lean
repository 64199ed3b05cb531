import Verif.Lemmas.SymbTerms
import Verif.Props.EkfGenFull

/-!
The form of the blocks that the generator makes.
-/

namespace Verif.Props.EkfGen

open Verif.Model.Symb Verif.Model.Symb.Blk Verif.Model.EkfGen Verif.Spec.Symb Verif.Spec.EkfGen Verif.Lemmas.Symb
open Verif.Props.Symb

variable {C : Cfg}

theorem nice_symb {a b : Dim} (k : Kind) (r c : ℕ) (hne : (a, b) ≠ one1) : Nice a b (symb k r c a b) := nice_of rfl rfl rfl hne

theorem term_symb {a b : Dim} (k : Kind) (r c : ℕ) : Term a b (symb k r c a b) := ⟨rfl, rfl, rfl⟩

/-- A block of a Jacobian, if there is one. -/
def opt (p : Bool) (t : Blk) : List Blk := if p then [t] else []

theorem mem_opt {p : Bool} {t u : Blk} : u ∈ opt p t ↔ p = true ∧ u = t := by
  cases p <;> simp [opt]

variable (C) in
/-- A block of the square of the Jacobian. -/
def sq (r c : Fin (C.n + 1)) : List Blk := (List.finRange (C.n + 1)).flatMap fun k =>
  opt (C.fx r k && C.fx k c)
    (.mul false false (C.dim r) (C.dim c) [symb .dxdx r k (C.dim r) (C.dim k), symb .dxdx k c (C.dim k) (C.dim c)])

theorem terms_opt {a b : Dim} {p : Bool} {t : Blk} (h : Term a b t) : Terms a b (opt p t) := by
  intro u hu
  rw [(mem_opt.mp hu).2]
  exact h

theorem stateJac_mk (r c : Fin (C.n + 1)) :
    stateJac C r c = some (mk (C.dim r) (C.dim c) (opt (C.fx r c) (symb .dxdx r c (C.dim r) (C.dim c)))) := by
  unfold stateJac opt
  cases C.fx r c <;> rfl

theorem times_opt {a b c : Dim} {p q : Bool} {x y : Blk} (hx : Nice a b x) (hy : Nice b c y) (hix : x.isIdent = false)
    (hiy : y.isIdent = false) (hne : (a, b) ≠ one1) (hne' : (b, c) ≠ one1) :
    times (mk a b (opt p x)) (mk b c (opt q y)) =
      some (mk a c (opt (p && q) (.mul false false a c (x.mulTerms ++ y.mulTerms)))) := by
  cases p with
  | false =>
    have hs : (mk b c (opt q y)).shape = (b, c) := by
      cases q
      · rfl
      · exact hy.shape
    exact times_zero_left rfl hne hs hne'
  | true =>
    cases q with
    | false => exact times_zero_right hx.shape hne rfl hne'
    | true => exact (times_mul hx hy hix hiy hne hne').1

theorem sq_mk (hC : NoOne C) (r c : Fin (C.n + 1)) :
    mulM (stateJac C) (stateJac C) r c = some (mk (C.dim r) (C.dim c) (sq C r c)) := by
  have hs : ∀ i j : Fin (C.n + 1), (mk (C.dim i) (C.dim j) (opt (C.fx i j) (symb .dxdx i j (C.dim i) (C.dim j)))).shape =
      (C.dim i, C.dim j) := fun i j => mk_shape (terms_opt (term_symb _ _ _))
  refine mulM_mk (fun k => terms_opt ⟨rfl, rfl, rfl⟩) (fun k => stateJac_mk r k) (fun k => stateJac_mk k c) ?_ ?_ fun k => ?_
  · unfold Blk.rows
    rw [hs]
  · unfold Blk.cols
    rw [hs]
  · have h1 := ne_left (hC.1 r) (C.dim k)
    have h2 := ne_left (hC.1 k) (C.dim c)
    exact times_opt (nice_symb _ _ _ h1) (nice_symb _ _ _ h2) rfl rfl h1 h2

theorem mem_sq {r c : Fin (C.n + 1)} {t : Blk} : t ∈ sq C r c ↔ ∃ k, (C.fx r k = true ∧ C.fx k c = true) ∧ t =
    .mul false false (C.dim r) (C.dim c) [symb .dxdx r k (C.dim r) (C.dim k), symb .dxdx k c (C.dim k) (C.dim c)] := by
  unfold sq
  simp [List.mem_flatMap, mem_opt]

theorem nice_prod {a b c : Dim} {x y : Blk} (hx : Nice a b x) (hy : Nice b c y) (hix : x.isIdent = false)
    (hiy : y.isIdent = false) (hne : (a, b) ≠ one1) (hne' : (b, c) ≠ one1) :
    Nice a c (.mul false false a c (x.mulTerms ++ y.mulTerms)) := (times_mul hx hy hix hiy hne hne').2

theorem nice_sq (hC : NoOne C) {r c : Fin (C.n + 1)} {t : Blk} (h : t ∈ sq C r c) : Nice (C.dim r) (C.dim c) t := by
  obtain ⟨k, -, rfl⟩ := mem_sq.mp h
  have h1 := ne_left (hC.1 r) (C.dim k)
  have h2 := ne_left (hC.1 k) (C.dim c)
  exact nice_prod (nice_symb _ _ _ h1) (nice_symb _ _ _ h2) rfl rfl h1 h2

variable (C) in
/-- The terms of a block of the transition. -/
def aTerms (r c : Fin (C.n + 1)) : List Blk :=
  opt (decide (c = r)) (.const false .ident (C.dim r) (C.dim c)) ++
    scl dtB (C.dim r) (C.dim c) (opt (C.fx r c) (symb .dxdx r c (C.dim r) (C.dim c))) ++
      scl halfB (C.dim r) (C.dim c) (scl dtB (C.dim r) (C.dim c) (scl dtB (C.dim r) (C.dim c) (sq C r c)))

theorem scl_dt {a b : Dim} {l : List Blk} (hne : (a, b) ≠ one1) (h : ∀ t ∈ l, Nice a b t) :
    times dtB (mk a b l) = some (mk a b (scl dtB a b l)) ∧ ∀ t ∈ scl dtB a b l, Nice a b t ∧ Term a b t ∧ t.isIdent = false :=
  scl_ok (s := dtB) (a := a) (b := b) (l := l) rfl rfl rfl rfl hne h
theorem scl_half {a b : Dim} {l : List Blk} (hne : (a, b) ≠ one1) (h : ∀ t ∈ l, Nice a b t) :
    times halfB (mk a b l) = some (mk a b (scl halfB a b l)) ∧ ∀ t ∈ scl halfB a b l, Nice a b t ∧ Term a b t ∧ t.isIdent = false :=
  scl_ok (s := halfB) (a := a) (b := b) (l := l) rfl rfl rfl rfl hne h

theorem abar_mk (hC : NoOne C) (r c : Fin (C.n + 1)) :
    abarM C r c = some (mk (C.dim r) (C.dim c) (aTerms C r c)) ∧ Terms (C.dim r) (C.dim c) (aTerms C r c) := by
  have hne := ne_left (hC.1 r) (C.dim c)
  have h1 := scl_dt (l := opt (C.fx r c) (symb .dxdx r c (C.dim r) (C.dim c))) hne (fun t ht => by
    rw [(mem_opt.mp ht).2]
    exact nice_symb _ _ _ hne)
  have h2 := scl_dt (l := sq C r c) hne (fun t ht => nice_sq hC ht)
  have h3 := scl_dt hne (fun t ht => (h2.2 t ht).1)
  have h4 := scl_half hne (fun t ht => (h3.2 t ht).1)
  have hi : identM C r c = some (mk (C.dim r) (C.dim c) (opt (decide (c = r)) (.const false .ident (C.dim r) (C.dim c)))) := by
    unfold identM
    by_cases h : c = r
    · rw [if_pos h, decide_eq_true h]
      rfl
    · rw [if_neg h, decide_eq_false h]
      rfl
  have t0 : Terms (C.dim r) (C.dim c) (opt (decide (c = r)) (.const false .ident (C.dim r) (C.dim c))) :=
    terms_opt ⟨rfl, rfl, rfl⟩
  have t1 : Terms (C.dim r) (C.dim c) (scl dtB (C.dim r) (C.dim c) (opt (C.fx r c) (symb .dxdx r c (C.dim r) (C.dim c)))) :=
    fun t ht => (h1.2 t ht).2.1
  have t4 : Terms (C.dim r) (C.dim c) (scl halfB (C.dim r) (C.dim c) (scl dtB (C.dim r) (C.dim c)
    (scl dtB (C.dim r) (C.dim c) (sq C r c)))) := fun t ht => (h4.2 t ht).2.1
  refine ⟨?_, (t0.append t1).append t4⟩
  unfold abarM addM scaleM
  simp only [hi, stateJac_mk, sq_mk hC, Option.bind_eq_bind, Option.bind_some, h1.1, h2.1, h3.1, h4.1, plus_mk t0 t1,
    plus_mk (t0.append t1) t4]
  rfl

end Verif.Props.EkfGen
