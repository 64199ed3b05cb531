import Verif.Props.EkfGenRedA

/-!
The form of the blocks of the propagated covariance.
-/

namespace Verif.Props.EkfGen

open Verif.Model.Symb Verif.Model.Symb.Blk Verif.Model.EkfGen Verif.Spec.Symb Verif.Spec.EkfGen Verif.Lemmas.Symb
open Verif.Props.Symb

variable {C : Cfg}

/-! ### The committed matrices -/

variable (C) in
/-- A block of the committed transition, from what is known of it: where it is not zero, and where it is the identity. -/
def entB (z : Fin (C.n + 1) → Fin (C.n + 1) → Bool) (d : Fin (C.n + 1) → Bool) (r c : Fin (C.n + 1)) : Blk :=
  if z r c then if r = c ∧ d r then .const false .ident (C.dim r) (C.dim c) else symb .abar r c (C.dim r) (C.dim c)
  else c0 (C.dim r) (C.dim c)

theorem diag_nonempty (r : Fin (C.n + 1)) : aTerms C r r ≠ [] := by
  unfold aTerms
  simp [opt]

theorem newM_abar (hC : NoOne C) : ∃ z d, (∀ r, z r r = true) ∧ ∀ r c, newM .abar (abarM C) r c = some (entB C z d r c) := by
  refine ⟨fun r c => !(aTerms C r c).isEmpty, fun r => (mk (C.dim r) (C.dim r) (aTerms C r r)).isIdent, ?_, ?_⟩
  · intro r
    simp [diag_nonempty r]
  · intro r c
    obtain ⟨h1, hT⟩ := abar_mk hC r c
    unfold newM newBlk entB Blk.rows Blk.cols
    simp only [h1, Option.bind_eq_bind, Option.bind_some, mk_shape hT, mk_isZero hT]
    cases hz : (aTerms C r c).isEmpty with
    | true => rfl
    | false =>
      by_cases hrc : r = c
      · subst hrc
        simp
      · have hi : (mk (C.dim r) (C.dim c) (aTerms C r c)).isIdent = false := by
          refine mk_noIdent fun t ht => ?_
          have hne := ne_left (hC.1 r) (C.dim c)
          have h1 := scl_dt (l := opt (C.fx r c) (symb .dxdx r c (C.dim r) (C.dim c))) hne (fun t ht => by
            rw [(mem_opt.mp ht).2]
            exact nice_symb _ _ _ hne)
          have h2 := scl_dt (l := sq C r c) hne (fun t ht => nice_sq hC ht)
          have h3 := scl_dt hne (fun t ht => (h2.2 t ht).1)
          have h4 := scl_half hne (fun t ht => (h3.2 t ht).1)
          unfold aTerms at ht
          rcases List.mem_append.mp ht with ht | ht
          · rcases List.mem_append.mp ht with ht | ht
            · exact absurd (of_decide_eq_true (mem_opt.mp ht).1) fun e => hrc e.symm
            · exact (h1.2 t ht).2.2
          · exact (h4.2 t ht).2.2
        simp [hi, hrc]

/-- A block of the committed input matrix. -/
theorem bbar_form (hC : NoOne C) (r : Fin (C.n + 1)) (c : Fin (C.m + 1)) : ∃ L, (∀ t ∈ L, Nice (C.dim r) (C.inp c) t) ∧
    bbarM C r c = some (mk (C.dim r) (C.inp c) (scl dtB (C.dim r) (C.inp c) L)) := by
  have hi : ∀ k, identM C r k = some (mk (C.dim r) (C.dim k) (opt (decide (k = r)) (.const false .ident (C.dim r) (C.dim k)))) := by
    intro k
    unfold identM
    by_cases h : k = r
    · rw [if_pos h, decide_eq_true h]
      rfl
    · rw [if_neg h, decide_eq_false h]
      rfl
  have hu : ∀ k, inputJac C k c = some (mk (C.dim k) (C.inp c) (opt (C.fu k c) (symb .dxdu k c (C.dim k) (C.inp c)))) := by
    intro k
    unfold inputJac opt
    cases C.fu k c <;> rfl
  have hrow : ∀ k, ∃ T, Terms (C.dim r) (C.dim k) T ∧ (∀ t ∈ T, Nice (C.dim r) (C.dim k) t) ∧
      (∀ t, T = [t] → t.isIdent = true → k = r) ∧
      addM (identM C) (scaleM halfB (scaleM dtB (stateJac C))) r k = some (mk (C.dim r) (C.dim k) T) := by
    intro k
    have hne := ne_left (hC.1 r) (C.dim k)
    have h1 := scl_dt (l := opt (C.fx r k) (symb .dxdx r k (C.dim r) (C.dim k))) hne (fun t ht => by
      rw [(mem_opt.mp ht).2]
      exact nice_symb _ _ _ hne)
    have h2 := scl_half hne (fun t ht => (h1.2 t ht).1)
    have t0 : Terms (C.dim r) (C.dim k) (opt (decide (k = r)) (.const false .ident (C.dim r) (C.dim k))) :=
      terms_opt ⟨rfl, rfl, rfl⟩
    have t2 : Terms (C.dim r) (C.dim k) (scl halfB (C.dim r) (C.dim k) (scl dtB (C.dim r) (C.dim k)
      (opt (C.fx r k) (symb .dxdx r k (C.dim r) (C.dim k))))) := fun t ht => (h2.2 t ht).2.1
    refine ⟨_, t0.append t2, ?_, ?_, ?_⟩
    · intro t ht
      rcases List.mem_append.mp ht with ht | ht
      · rw [(mem_opt.mp ht).2]
        exact nice_of rfl rfl rfl hne
      · exact (h2.2 t ht).1
    · intro t ht hti
      have hm : t ∈ opt (decide (k = r)) (.const false .ident (C.dim r) (C.dim k)) ++ scl halfB (C.dim r) (C.dim k)
        (scl dtB (C.dim r) (C.dim k) (opt (C.fx r k) (symb .dxdx r k (C.dim r) (C.dim k)))) := by
        rw [ht]
        simp
      rcases List.mem_append.mp hm with hm | hm
      · exact of_decide_eq_true (mem_opt.mp hm).1
      · rw [(h2.2 t hm).2.2] at hti
        simp at hti
    · unfold addM scaleM
      simp only [hi, stateJac_mk, h1.1, h2.1, Option.bind_eq_bind, Option.bind_some, plus_mk t0 t2]
  have hprod : ∀ k, ∃ X M, addM (identM C) (scaleM halfB (scaleM dtB (stateJac C))) r k = some X ∧ X.shape = (C.dim r, C.dim k) ∧
      Terms (C.dim r) (C.inp c) M ∧ (∀ t ∈ M, Nice (C.dim r) (C.inp c) t) ∧
      times X (mk (C.dim k) (C.inp c) (opt (C.fu k c) (symb .dxdu k c (C.dim k) (C.inp c)))) = some (mk (C.dim r) (C.inp c) M) := by
    intro k
    have hne := ne_left (hC.1 r) (C.dim k)
    have hne' := ne_left (hC.1 k) (C.inp c)
    obtain ⟨T, hT, hN, hI, hX⟩ := hrow k
    have hu' : Nice (C.dim k) (C.inp c) (symb .dxdu k c (C.dim k) (C.inp c)) := nice_symb _ _ _ hne'
    refine ⟨mk (C.dim r) (C.dim k) T, ?_⟩
    cases hfu : C.fu k c with
    | false => exact ⟨[], hX, mk_shape hT, Terms.nil, by simp, times_zero_right (mk_shape hT) hne rfl hne'⟩
    | true =>
      by_cases hT0 : T = []
      · subst hT0
        exact ⟨[], hX, mk_shape hT, Terms.nil, by simp, times_zero_left rfl hne rfl hne'⟩
      · have hn := nice_mk hne hN hT0
        cases hid : (mk (C.dim r) (C.dim k) T).isIdent with
        | true =>
          obtain ⟨t, rfl⟩ : ∃ t, T = [t] := by
            match T, hT0, hid with
            | [t], _, _ => exact ⟨t, rfl⟩
          have hkr := hI t rfl hid
          subst hkr
          refine ⟨[symb .dxdu k c (C.dim k) (C.inp c)], hX, mk_shape hT, Terms.one (term_symb _ _ _), ?_,
            times_ident_left hid hn.nz hu' hne'⟩
          intro u hu
          rw [List.mem_singleton.mp hu]
          exact hu'
        | false =>
          obtain ⟨h1, h2⟩ := times_mul hn hu' hid rfl hne hne'
          refine ⟨[_], hX, mk_shape hT, Terms.one ⟨rfl, rfl, rfl⟩, ?_, h1⟩
          intro u hu
          rw [List.mem_singleton.mp hu]
          exact h2
  choose X M hX hs hM hN ht using hprod
  refine ⟨(List.finRange (C.n + 1)).flatMap M, ?_, ?_⟩
  · intro t ht
    obtain ⟨k, -, hk⟩ := List.mem_flatMap.mp ht
    exact hN k t hk
  · have hmul : mulM (addM (identM C) (scaleM halfB (scaleM dtB (stateJac C)))) (inputJac C) r c =
        some (mk (C.dim r) (C.inp c) ((List.finRange (C.n + 1)).flatMap M)) := by
      refine mulM_mk hM hX hu ?_ ?_ ht
      · unfold Blk.rows
        rw [hs]
      · unfold Blk.cols
        rw [mk_shape (terms_opt (term_symb _ _ _))]
    show (do
      let a ← mulM (addM (identM C) (scaleM halfB (scaleM dtB (stateJac C)))) (inputJac C) r c
      times dtB a) = _
    simp only [hmul, Option.bind_eq_bind, Option.bind_some]
    refine (scl_dt (ne_left (hC.1 r) _) ?_).1
    intro t ht
    obtain ⟨k, -, hk⟩ := List.mem_flatMap.mp ht
    exact hN k t hk

theorem newM_bbar (hC : NoOne C) : ∃ g : Fin (C.n + 1) → Fin (C.m + 1) → Bool, ∀ r c, newM .bbar (bbarM C) r c =
    some (mk (C.dim r) (C.inp c) (opt (g r c) (symb .bbar r c (C.dim r) (C.inp c)))) := by
  choose L hL hB using fun r c => bbar_form hC r c
  refine ⟨fun r c => !(L r c).isEmpty, fun r c => ?_⟩
  have hT : Terms (C.dim r) (C.inp c) (scl dtB (C.dim r) (C.inp c) (L r c)) := fun t ht =>
    ((scl_dt (ne_left (hC.1 r) _) (hL r c)).2 t ht).2.1
  have hI : (mk (C.dim r) (C.inp c) (scl dtB (C.dim r) (C.inp c) (L r c))).isIdent = false :=
    mk_noIdent fun t ht => ((scl_dt (ne_left (hC.1 r) _) (hL r c)).2 t ht).2.2
  unfold newM newBlk Blk.rows Blk.cols
  simp only [hB, Option.bind_eq_bind, Option.bind_some, mk_shape hT, mk_isZero hT, hI]
  unfold scl
  by_cases h : L r c = []
  · simp [h, opt, mk]
  · simp [h, opt, mk]

theorem bbar_red (hC : NoOne C) {R : Rules} {f : ℕ} (r : Fin (C.n + 1)) (c : Fin (C.m + 1)) :
    ∃ e, bbarM C r c = some e ∧ (reduce R (f + 1) e).isSome = true := by
  obtain ⟨L, hL, hB⟩ := bbar_form hC r c
  refine ⟨_, hB, ?_⟩
  rw [reduce_other]
  · rfl
  · unfold scl
    split_ifs
    · rfl
    · rfl

/-! ### The propagated covariance -/

section
variable (C) (z : Fin (C.n + 1) → Fin (C.n + 1) → Bool) (d : Fin (C.n + 1) → Bool) (g : Fin (C.n + 1) → Fin (C.m + 1) → Bool)

/-- A term of a block of `F P`. -/
def wT (r l k : Fin (C.n + 1)) : Blk :=
  if r = k ∧ d r then symb .cov r l (C.dim r) (C.dim l)
  else .mul false false (C.dim r) (C.dim l) [symb .abar r k (C.dim r) (C.dim k), symb .cov k l (C.dim k) (C.dim l)]

/-- A block of `F P`. -/
def wTs (r l : Fin (C.n + 1)) : List Blk := (List.finRange (C.n + 1)).flatMap fun k => opt (z r k) (wT C d r l k)

/-- The terms of a block of `F P Fᵀ`. -/
def vT (r c l : Fin (C.n + 1)) : List Blk :=
  if z c l then
    if c = l ∧ d c then wTs C z d r l
    else [.mul false false (C.dim r) (C.dim c)
      ((mk (C.dim r) (C.dim l) (wTs C z d r l)).mulTerms ++ [.tr false (symb .abar c l (C.dim c) (C.dim l))])]
  else []

def vTs (r c : Fin (C.n + 1)) : List Blk := (List.finRange (C.n + 1)).flatMap (vT C z d r c)

/-- The terms of a block of `G Q Gᵀ`. -/
def uT (r c : Fin (C.n + 1)) (l : Fin (C.m + 1)) : Blk :=
  .mul false false (C.dim r) (C.dim c) [symb .bbar r l (C.dim r) (C.inp l), symb .qu l l (C.inp l) (C.inp l),
    .tr false (symb .bbar c l (C.dim c) (C.inp l))]
def uTs (r c : Fin (C.n + 1)) : List Blk := (List.finRange (C.m + 1)).flatMap fun l => opt (g r l && g c l) (uT C r c l)
end

theorem flatMap_single {n : ℕ} {X : Fin n → List Blk} {l : Fin n} (h : ∀ k, k ≠ l → X k = []) :
    (List.finRange n).flatMap X = X l := by
  have : ∀ s : List (Fin n), s.Nodup → s.flatMap X = if l ∈ s then X l else [] := by
    intro s
    induction s with
    | nil => simp
    | cons a s ih =>
      intro hs
      rw [List.flatMap_cons, ih hs.of_cons]
      by_cases ha : a = l
      · subst ha
        have : a ∉ s := (List.nodup_cons.mp hs).1
        simp [this]
      · rw [h a ha]
        have ha' : ¬ l = a := fun e => ha e.symm
        simp [ha']
  rw [this _ (List.nodup_finRange n)]
  simp

theorem nice_tr {a b : Dim} {k : Kind} {r c : ℕ} (hne : (b, a) ≠ one1) : Nice b a (.tr false (symb k r c a b)) :=
  nice_of rfl rfl rfl hne

theorem transpose_symb {a b : Dim} {k : Kind} {r c : ℕ} (hne : (a, b) ≠ one1) :
    (symb k r c a b).transpose = .tr false (symb k r c a b) := by
  unfold Blk.transpose
  rw [symb_scalar hne]
  rfl

section
variable {z : Fin (C.n + 1) → Fin (C.n + 1) → Bool} {d : Fin (C.n + 1) → Bool} {g : Fin (C.n + 1) → Fin (C.m + 1) → Bool}

theorem wT_ok (hC : NoOne C) (r l k : Fin (C.n + 1)) : Nice (C.dim r) (C.dim l) (wT C d r l k) ∧
    Term (C.dim r) (C.dim l) (wT C d r l k) ∧ (wT C d r l k).isIdent = false := by
  have h1 := ne_left (hC.1 r) (C.dim k)
  have h2 := ne_left (hC.1 k) (C.dim l)
  unfold wT
  split_ifs with h
  · exact ⟨nice_symb _ _ _ (ne_left (hC.1 r) _), term_symb _ _ _, rfl⟩
  · exact ⟨nice_prod (nice_symb _ _ _ h1) (nice_symb _ _ _ h2) rfl rfl h1 h2, ⟨rfl, rfl, rfl⟩, rfl⟩

theorem mem_wTs {r l : Fin (C.n + 1)} {t : Blk} : t ∈ wTs C z d r l ↔ ∃ k, z r k = true ∧ t = wT C d r l k := by
  unfold wTs
  simp [List.mem_flatMap, mem_opt]

theorem terms_wTs (hC : NoOne C) (r l : Fin (C.n + 1)) : Terms (C.dim r) (C.dim l) (wTs C z d r l) := by
  intro t ht
  obtain ⟨k, -, rfl⟩ := mem_wTs.mp ht
  exact (wT_ok hC r l k).2.1

theorem wTs_ne (hz : ∀ r, z r r = true) (r l : Fin (C.n + 1)) : wTs C z d r l ≠ [] :=
  List.ne_nil_of_mem (mem_wTs.mpr ⟨r, hz r, rfl⟩)

theorem nice_wTs (hC : NoOne C) (hz : ∀ r, z r r = true) (r l : Fin (C.n + 1)) :
    Nice (C.dim r) (C.dim l) (mk (C.dim r) (C.dim l) (wTs C z d r l)) := by
  refine nice_mk (ne_left (hC.1 r) _) (fun t ht => ?_) (wTs_ne hz r l)
  obtain ⟨k, -, rfl⟩ := mem_wTs.mp ht
  exact (wT_ok hC r l k).1

theorem ident_wTs (hC : NoOne C) (r l : Fin (C.n + 1)) : (mk (C.dim r) (C.dim l) (wTs C z d r l)).isIdent = false :=
  mk_noIdent fun t ht => by
    obtain ⟨k, -, rfl⟩ := mem_wTs.mp ht
    exact (wT_ok hC r l k).2.2

theorem entB_shape (r c : Fin (C.n + 1)) : (entB C z d r c).shape = (C.dim r, C.dim c) := by
  unfold entB
  split_ifs <;> rfl

/-- The blocks of `F P`. -/
theorem fp_mk (hC : NoOne C) {F : OMat (C.n + 1) (C.n + 1)} (hF : ∀ r c, F r c = some (entB C z d r c)) (r l : Fin (C.n + 1)) :
    mulM F (covM C .cov) r l = some (mk (C.dim r) (C.dim l) (wTs C z d r l)) := by
  refine mulM_mk (fun k => terms_opt (wT_ok hC r l k).2.1) (hF r) (fun k => rfl) ?_ rfl fun k => ?_
  · unfold Blk.rows
    rw [entB_shape]
  · have h1 := ne_left (hC.1 r) (C.dim k)
    have h2 := ne_left (hC.1 k) (C.dim l)
    unfold entB wT
    cases hz : z r k with
    | false => exact times_zero_left rfl h1 rfl h2
    | true =>
      by_cases hd : r = k ∧ d r = true
      · rw [if_pos hd, if_pos rfl, if_pos hd]
        obtain ⟨rfl, hd⟩ := hd
        exact times_ident_left rfl rfl (nice_symb _ _ _ h2) h2
      · rw [if_neg hd, if_pos rfl, if_neg hd]
        exact (times_mul (nice_symb _ _ _ h1) (nice_symb _ _ _ h2) rfl rfl h1 h2).1

theorem vT_ok (hC : NoOne C) (r c l : Fin (C.n + 1)) : Terms (C.dim r) (C.dim c) (vT C z d r c l) := by
  unfold vT
  split_ifs with h1 h2
  · obtain ⟨rfl, -⟩ := h2
    exact terms_wTs hC r c
  · exact Terms.one ⟨rfl, rfl, rfl⟩
  · exact Terms.nil

theorem entB_transpose (hC : NoOne C) (r c : Fin (C.n + 1)) : (entB C z d r c).transpose =
    if z r c then if r = c ∧ d r then .const false .ident (C.dim r) (C.dim c)
      else .tr false (symb .abar r c (C.dim r) (C.dim c)) else c0 (C.dim c) (C.dim r) := by
  unfold entB
  split_ifs with h1 h2
  · rfl
  · exact transpose_symb (ne_left (hC.1 r) _)
  · rfl

/-- The blocks of `F P Fᵀ`. -/
theorem fpf_mk (hC : NoOne C) (hz : ∀ r, z r r = true) {F : OMat (C.n + 1) (C.n + 1)}
    (hF : ∀ r c, F r c = some (entB C z d r c)) (r c : Fin (C.n + 1)) :
    mulM (mulM F (covM C .cov)) (trM F) r c = some (mk (C.dim r) (C.dim c) (vTs C z d r c)) := by
  have hy : ∀ l, trM F l c = some (entB C z d c l).transpose := by
    intro l
    unfold trM
    simp only [hF, Option.bind_eq_bind, Option.bind_some]
  refine mulM_mk (fun l => vT_ok hC r c l) (fun l => fp_mk hC hF r l) hy ?_ ?_ fun l => ?_
  · unfold Blk.rows
    rw [mk_shape (terms_wTs hC r 0)]
  · rw [entB_transpose hC]
    unfold Blk.cols
    split_ifs with h1 h2
    · obtain ⟨rfl, -⟩ := h2
      rfl
    · rfl
    · rfl
  · rw [entB_transpose hC]
    have h1 := ne_left (hC.1 r) (C.dim l)
    have h2 := ne_left (hC.1 l) (C.dim c)
    unfold vT
    cases hcl : z c l with
    | false =>
      refine times_zero_right (mk_shape (terms_wTs hC r l)) h1 rfl h2
    | true =>
      by_cases hd : c = l ∧ d c = true
      · rw [if_pos rfl, if_pos hd, if_pos rfl, if_pos hd]
        obtain ⟨rfl, hd⟩ := hd
        exact times_ident_right (mk_shape (terms_wTs hC r c)) (nice_wTs hC hz r c).nz (ident_wTs hC r c) h1 rfl rfl
      · rw [if_pos rfl, if_neg hd, if_pos rfl, if_neg hd]
        exact (times_mul (nice_wTs hC hz r l) (nice_tr h2) (ident_wTs hC r l) rfl h1 h2).1

/-- The blocks of `G Q Gᵀ`. -/
theorem gqg_mk (hC : NoOne C) {G : OMat (C.n + 1) (C.m + 1)}
    (hG : ∀ r c, G r c = some (mk (C.dim r) (C.inp c) (opt (g r c) (symb .bbar r c (C.dim r) (C.inp c))))) (r c : Fin (C.n + 1)) :
    mulM (mulM G (inputCov C)) (trM G) r c = some (mk (C.dim r) (C.dim c) (uTs C g r c)) := by
  have hs : ∀ r c, (mk (C.dim r) (C.inp c) (opt (g r c) (symb .bbar r c (C.dim r) (C.inp c)))).shape = (C.dim r, C.inp c) :=
    fun r c => mk_shape (terms_opt (term_symb _ _ _))
  have hq : ∀ r l, mulM G (inputCov C) r l = some (mk (C.dim r) (C.inp l) (opt (g r l)
      (.mul false false (C.dim r) (C.inp l) [symb .bbar r l (C.dim r) (C.inp l), symb .qu l l (C.inp l) (C.inp l)]))) := by
    intro r l
    have h := mulM_mk (A := G) (B := inputCov C) (r := r) (c := l) (a := C.dim r) (b := C.inp l)
      (X := fun k => mk (C.dim r) (C.inp k) (opt (g r k) (symb .bbar r k (C.dim r) (C.inp k))))
      (Y := fun k => if l = k then symb .qu k l (C.inp k) (C.inp l) else c0 (C.inp k) (C.inp l))
      (M := fun k => opt (g r k && decide (l = k))
        (.mul false false (C.dim r) (C.inp l) [symb .bbar r k (C.dim r) (C.inp k), symb .qu k l (C.inp k) (C.inp l)]))
      (fun k => terms_opt ⟨rfl, rfl, rfl⟩) (hG r) (fun k => rfl) (by unfold Blk.rows; rw [hs]) (by split_ifs <;> rfl) ?_
    · rw [h, flatMap_single (l := l)]
      · simp
      · intro k hk
        rw [decide_eq_false fun e => hk e.symm, Bool.and_false]
        rfl
    · intro k
      have h1 := ne_left (hC.1 r) (C.inp k)
      have h2 := ne_left (hC.2 k) (C.inp l)
      have := times_opt (p := g r k) (q := decide (l = k)) (nice_symb .bbar r k h1) (nice_symb .qu k l h2) rfl rfl h1 h2
      rw [show (if l = k then symb .qu k l (C.inp k) (C.inp l) else c0 (C.inp k) (C.inp l)) =
        mk (C.inp k) (C.inp l) (opt (decide (l = k)) (symb .qu k l (C.inp k) (C.inp l))) by
          by_cases h : l = k
          · rw [if_pos h, decide_eq_true h]
            rfl
          · rw [if_neg h, decide_eq_false h]
            rfl]
      exact this
  have ht : ∀ l, trM G l c = some (mk (C.inp l) (C.dim c) (opt (g c l) (.tr false (symb .bbar c l (C.dim c) (C.inp l))))) := by
    intro l
    unfold trM
    simp only [hG, Option.bind_eq_bind, Option.bind_some]
    cases g c l
    · rfl
    · exact congrArg some (transpose_symb (ne_left (hC.1 c) _))
  have hs' : ∀ l, (mk (C.inp l) (C.dim c) (opt (g c l) (.tr false (symb .bbar c l (C.dim c) (C.inp l))))).shape = (C.inp l, C.dim c) :=
    fun l => mk_shape (terms_opt ⟨rfl, rfl, rfl⟩)
  refine mulM_mk (fun l => terms_opt ⟨rfl, rfl, rfl⟩) (fun l => hq r l) ht ?_ ?_ fun l => ?_
  · cases g r 0 <;> rfl
  · unfold Blk.cols
    rw [hs']
  · have h1 := ne_left (hC.1 r) (C.inp l)
    have h2 := ne_left (hC.2 l) (C.dim c)
    have h3 := ne_left (hC.2 l) (C.inp l)
    exact times_opt (p := g r l) (q := g c l) (nice_prod (nice_symb .bbar r l h1) (nice_symb .qu l l h3) rfl rfl h1 h3)
      (nice_tr h2) rfl rfl h1 h2

/-- The blocks of the propagated covariance. -/
theorem pout_mk (hC : NoOne C) (hz : ∀ r, z r r = true) {F : OMat (C.n + 1) (C.n + 1)} {G : OMat (C.n + 1) (C.m + 1)}
    (hF : ∀ r c, F r c = some (entB C z d r c))
    (hG : ∀ r c, G r c = some (mk (C.dim r) (C.inp c) (opt (g r c) (symb .bbar r c (C.dim r) (C.inp c))))) (r c : Fin (C.n + 1)) :
    poutM C F G r c = some (mk (C.dim r) (C.dim c) (vTs C z d r c ++ uTs C g r c)) ∧
      Terms (C.dim r) (C.dim c) (vTs C z d r c) ∧ Terms (C.dim r) (C.dim c) (uTs C g r c) := by
  have t1 : Terms (C.dim r) (C.dim c) (vTs C z d r c) := Terms.flatMap fun l => vT_ok hC r c l
  have t2 : Terms (C.dim r) (C.dim c) (uTs C g r c) := Terms.flatMap fun l => terms_opt ⟨rfl, rfl, rfl⟩
  refine ⟨?_, t1, t2⟩
  unfold poutM addM
  simp only [fpf_mk hC hz hF, gqg_mk hC hG, Option.bind_eq_bind, Option.bind_some, plus_mk t1 t2]

end

end Verif.Props.EkfGen
