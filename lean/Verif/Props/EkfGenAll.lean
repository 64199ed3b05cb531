import Verif.Props.EkfGenRedM

/-!
C107: the generator succeeds for every configuration without blocks of size one and without the coupling that makes it fail.
-/

namespace Verif.Props.EkfGen

open Verif.Model.Symb Verif.Model.Symb.Blk Verif.Model.EkfGen Verif.Spec.Symb Verif.Spec.EkfGen Verif.Lemmas.Symb
open Verif.Props.Symb

variable {C : Cfg}

section
variable {z : Fin (C.n + 1) → Fin (C.n + 1) → Bool} {d : Fin (C.n + 1) → Bool} {g : Fin (C.n + 1) → Fin (C.m + 1) → Bool}
  {r c : Fin (C.n + 1)} {X : Fin (C.n + 1) → Blk} {E : List Blk}

/-- A list of terms with nothing in common is reduced, whatever its length. -/
theorem red_mk {R : Rules} {n : ℕ} {a b : Dim} {L : List Blk} (hT : Terms a b L) (hp : L.Pairwise (Apart R.eq))
    (hl : L.length + 1 < n) (hr : ∀ t ∈ L, (reduceTerm (reduce R n) t).isSome = true) :
    (reduce R (n + 1) (mk a b L)).isSome = true := by
  match L, hT, hp, hl, hr with
  | [], _, _, _, _ => rfl
  | [t], hT, _, _, _ =>
    rw [mk, reduce_other (hT t (by simp)).noAdd]
    rfl
  | t :: u :: l, _, hp, hl, hr => exact reduce_apart hp hl hr _ _ _

theorem red_gS {R : Rules} {n : ℕ} (hX : ∀ l, (X l).isAdd = true → (reduce R n (X l)).isSome = true) (l : Fin (C.n + 1)) :
    (reduceTerm (reduce R n) (gS C X r c l)).isSome = true := by
  refine reduceTerm_mul fun u hu ha => ?_
  simp only [List.mem_cons, List.not_mem_nil, or_false] at hu
  rcases hu with rfl | rfl
  · exact hX l ha
  · simp [isAdd] at ha

theorem red_wT {rec : Blk → Option Blk} {l k : Fin (C.n + 1)} : (reduceTerm rec (wT C d r l k)).isSome = true := by
  unfold wT
  split_ifs
  · rfl
  · refine reduceTerm_plain fun u hu => ?_
    simp only [List.mem_cons, List.not_mem_nil, or_false] at hu
    rcases hu with rfl | rfl <;> rfl

/-- The terms of the covariance, where nothing is common. -/
theorem red_all (hC : NoOne C) {q f : ℕ} (hX : Fac C X (q + 1) r) (hE : Oth C E (q + 1) r c)
    (hT : Terms (C.dim r) (C.dim c) (gTs C z d X E r c ++ uTs C g r c)) (hf : C.n + C.m + E.length + 4 ≤ f)
    (hrX : ∀ l, (X l).isAdd = true → (reduce (guarded (q + 2)) f (X l)).isSome = true)
    (hrE : ∀ t ∈ E, (reduceTerm (reduce (guarded (q + 2)) f) t).isSome = true) :
    (reduce (guarded (q + 2)) (f + 1) (mk (C.dim r) (C.dim c) (gTs C z d X E r c ++ uTs C g r c))).isSome = true := by
  have h1 := length_gTs (C := C) (z := z) (d := d) (X := X) (E := E) (r := r) (c := c)
  have h2 := length_uTs (C := C) (g := g) (r := r) (c := c)
  refine red_mk hT (all_pair hC ((gTs_pair hC hX hE).imp And.left) fun t ht => has_gTs hC hX hE ht) ?_ ?_
  · rw [List.length_append]
    omega
  · intro t ht
    rcases List.mem_append.mp ht with ht | ht
    · rcases mem_gTs ht with h | ⟨l, rfl⟩
      · exact hrE t h
      · exact red_gS hrX l
    · exact red_uT ht

theorem gTs_ne (hz : ∀ r, z r r = true) (hE : E ≠ []) : gTs C z d X E r c ≠ [] := by
  have : ∃ t, t ∈ gT C z d X E r c c := by
    unfold gT
    rw [if_pos (hz c)]
    split_ifs
    · exact List.exists_mem_of_ne_nil E hE
    · exact ⟨_, List.mem_singleton.mpr rfl⟩
  obtain ⟨t, ht⟩ := this
  exact List.ne_nil_of_mem (List.mem_flatMap.mpr ⟨c, List.mem_finRange c, ht⟩)

/-- The terms before the common factor is put in front. -/
theorem rest_ok (hC : NoOne C) {t : Blk} (ht : t ∈ gTs C z d (colP C r) [colP C r c] r c) :
    Term (C.dim r) (C.dim c) t ∧
    guardFirst (pre (sy .abar r r) (C.dim r) (C.dim c) t) = some (atom (.sym (sy .abar r r)) (C.dim r) (C.dim r), t) ∧
    (∀ u ∈ t.mulTerms, u.isScalar = false ∧ u.isAdd = false ∧ ∀ n, cls true (n + 1) u) ∧ t.mulTerms ≠ [] ∧
    (∀ nm, occs nm t.mulTerms ↔ occ nm t) := by
  have hrr := ne_left (hC.1 r) (C.dim r)
  rcases mem_gTs ht with h | ⟨l, rfl⟩
  · rw [List.mem_singleton.mp h]
    refine ⟨term_symb _ _ _, ?_, ?_, by simp [colP, symb, mulTerms], ?_⟩
    · show guardFirst (.mul false false (C.dim r) (C.dim c) [atom (.sym (sy .abar r r)) (C.dim r) (C.dim r), colP C r c]) = _
      rw [guardFirst, atom_scalar hrr, colP, symb_scalar (ne_left (hC.1 r) _)]
      rfl
    · intro u hu
      rw [List.mem_singleton.mp hu]
      exact ⟨symb_scalar (ne_left (hC.1 r) _), rfl, fun n => trivial⟩
    · intro nm
      simp [colP, symb, mulTerms, occs]
  · refine ⟨⟨rfl, rfl, rfl⟩, ?_, ?_, by simp [gS, mulTerms], ?_⟩
    · show guardFirst (.mul false false (C.dim r) (C.dim c) [atom (.sym (sy .abar r r)) (C.dim r) (C.dim r), colP C r l,
        .tr false (symb .abar c l (C.dim c) (C.dim l))]) = _
      simp only [guardFirst, popFirst_cons_f (atom_scalar hrr), Option.bind_eq_bind, Option.bind_some]
      rw [nonScalar_cons_f (show (colP C r l).isScalar = false from symb_scalar (ne_left (hC.1 r) _))]
      rfl
    · intro u hu
      simp only [gS, mulTerms, List.mem_cons, List.not_mem_nil, or_false] at hu
      rcases hu with rfl | rfl
      · exact ⟨symb_scalar (ne_left (hC.1 r) _), rfl, fun n => trivial⟩
      · exact ⟨tr_scalar hC c l, rfl, fun n => rfl⟩
    · intro nm
      rfl

theorem occ_pre {k : ℕ} {a b : Dim} {t : Blk} {nm : Name} (h : ∀ nm, occs nm t.mulTerms ↔ occ nm t) (hn : nm ≠ .sym k) :
    occ nm (pre k a b t) ↔ occ nm t := by
  unfold pre
  simp [occ, occs, hn, h]

/-- The terms of the covariance, where a first factor is common. -/
theorem red_common (hC : NoOne C) (hz : ∀ r, z r r = true) {q f : ℕ} (hf : C.n + C.m + 10 ≤ f) :
    (reduce (guarded (q + 6)) (f + 1) (mk (C.dim r) (C.dim c)
      ((gTs C z d (colP C r) [colP C r c] r c).map (pre (sy .abar r r) (C.dim r) (C.dim c)) ++ uTs C g r c))).isSome = true := by
  have hne := ne_left (hC.1 r) (C.dim c)
  have hrr := ne_left (hC.1 r) (C.dim r)
  have hlen := length_gTs (C := C) (z := z) (d := d) (X := colP C r) (E := [colP C r c]) (r := r) (c := c)
  have hlu := length_uTs (C := C) (g := g) (r := r) (c := c)
  have hok := fun t (ht : t ∈ gTs C z d (colP C r) [colP C r c] r c) => rest_ok hC ht
  have hpair := gTs_pair (z := z) (d := d) (n := q + 4) hC (fac_col (r := r) hC) (oth_col (c := c) hC)
  have hhas := fun t (ht : t ∈ gTs C z d (colP C r) [colP C r c] r c) =>
    has_gTs (n := q) hC (fac_col (r := r) hC) (oth_col (c := c) hC) ht
  have hnil := gTs_ne (d := d) (X := colP C r) (E := [colP C r c]) (r := r) (c := c) hz (by simp)
  generalize gTs C z d (colP C r) [colP C r c] r c = L at *
  have hT : Terms (C.dim r) (C.dim c) L := fun t ht => (hok t ht).1
  -- every term with the factor
  have hpre : ∀ t ∈ L, (∃ x y, Has (q + 6) (pre (sy .abar r r) (C.dim r) (C.dim c) t) x y) ∧
      NoG (pre (sy .abar r r) (C.dim r) (C.dim c) t) := by
    intro t ht
    obtain ⟨-, -, h1, h2, h3⟩ := hok t ht
    constructor
    · obtain ⟨y, hy⟩ : ∃ y, t.mulTerms.getLast? = some y := ⟨_, List.getLast?_eq_getLast_of_ne_nil h2⟩
      refine ⟨atom (.sym (sy .abar r r)) (C.dim r) (C.dim r), y, Has.mul ?_ ?_ rfl ?_⟩
      · intro u hu
        rcases List.mem_cons.mp hu with rfl | hu
        · exact atom_scalar hrr
        · exact (h1 u hu).1
      · intro u hu
        rcases List.mem_cons.mp hu with rfl | hu
        · trivial
        · exact (h1 u hu).2.2 _
      · exact getLast_append (p := [_]) hy
    · intro i j
      rw [occ_pre h3 (by simp [sy_inj])]
      exact (hhas t ht).2 i j
  have hne1 : (L.map (pre (sy .abar r r) (C.dim r) (C.dim c)) ++ uTs C g r c).Pairwise
      fun t u => Ne (guardEq (q + 6)) t u ∧ NoScal (guardEq (q + 6)) t u := by
    rw [List.pairwise_append]
    refine ⟨?_, (uTs_pair (n := q + 4) hC).imp fun h => ⟨h.ne, h.scal⟩, ?_⟩
    · rw [List.pairwise_map]
      refine hpair.imp_of_mem ?_
      rintro t u ht hu ⟨-, i, j, hs⟩
      obtain ⟨⟨x, y, h1⟩, -⟩ := hpre t ht
      obtain ⟨⟨x', y', h2⟩, -⟩ := hpre u hu
      have h3 : ¬ (occ (pN i j) (pre (sy .abar r r) (C.dim r) (C.dim c) t) ↔ occ (pN i j) (pre (sy .abar r r) (C.dim r) (C.dim c) u)) := by
        rw [occ_pre (hok t ht).2.2.2.2 (by simp [sy_inj]), occ_pre (hok u hu).2.2.2.2 (by simp [sy_inj])]
        exact hs
      exact ⟨⟨guardEq_false h1.cl h2.cl h3, guardEq_false h2.cl h1.cl fun e => h3 e.symm⟩, h1.noScal⟩
    · intro t ht u hu
      obtain ⟨v, hv, rfl⟩ := List.mem_map.mp ht
      obtain ⟨⟨x, y, h⟩, hn⟩ := hpre v hv
      have := noG_uT (n := q + 4) hC h hn hu
      exact ⟨this.ne, this.scal⟩
  match hL : L, hnil with
  | [t], _ =>
    -- one term
    have hTU : Terms (C.dim r) (C.dim c) ([pre (sy .abar r r) (C.dim r) (C.dim c) t] ++ uTs C g r c) :=
      (Terms.one ⟨rfl, rfl, rfl⟩).append (Terms.flatMap fun l => terms_opt ⟨rfl, rfl, rfl⟩)
    refine red_mk (L := [pre (sy .abar r r) (C.dim r) (C.dim c) t] ++ uTs C g r c) hTU
      (all_pair (n := q + 4) hC (by simp) ?_) ?_ ?_
    · intro u hu
      rw [List.mem_singleton.mp hu]
      exact hpre t (by simp)
    · rw [List.length_append, List.length_singleton]
      omega
    · intro u hu
      rcases List.mem_append.mp hu with hu | hu
      · rw [List.mem_singleton.mp hu]
        refine reduceTerm_plain fun v hv => ?_
        rcases List.mem_cons.mp hv with rfl | hv
        · rfl
        · exact ((hok t (by simp)).2.2.1 v hv).2.1
      · exact red_uT hu
  | t :: u :: l, _ =>
    have h2 : 2 ≤ (t :: u :: l).length := by simp
    rw [← hL] at h2 hpair hok hhas hT hlen hpre hne1 ⊢
    have hmk : mk (C.dim r) (C.dim c) (L.map (pre (sy .abar r r) (C.dim r) (C.dim c)) ++ uTs C g r c) =
        .add false (C.dim r) (C.dim c) (L.map (pre (sy .abar r r) (C.dim r) (C.dim c)) ++ uTs C g r c) := by
      refine mk_two ?_
      rw [List.length_append, List.length_map]
      omega
    have hlM : (L.map (pre (sy .abar r r) (C.dim r) (C.dim c)) ++ uTs C g r c).length = L.length + (uTs C g r c).length := by
      rw [List.length_append, List.length_map]
    rw [List.length_singleton] at hlen
    rw [hmk]
    have hfac := factor_apart (hne1.imp And.left)
    obtain ⟨e, rfl⟩ : ∃ e, f = e + 2 := ⟨f - 2, by omega⟩
    have hsc := factorScalars_apart (n := e + 1) (hne1.imp And.right) (by rw [hlM]; omega) false (C.dim r) (C.dim c)
    -- the sum of the rests
    have hred : (reduce (guarded (q + 6)) (e + 2) (.add false (C.dim r) (C.dim c) L)).isSome = true := by
      refine reduce_apart (hpair.imp And.left) (by omega) ?_ _ _ _
      intro v hv
      obtain ⟨h1, -, h3, -, -⟩ := hok v hv
      cases v with
      | mul => exact reduceTerm_plain fun w hw => (h3 w hw).2.1
      | add => exact absurd h1.noAdd (by simp [isAdd])
      | const => rfl
      | tr => rfl
    have hM : pre (sy .abar r r) (C.dim r) (C.dim c) (mk (C.dim r) (C.dim c) L) =
        .mul false false (C.dim r) (C.dim c) [atom (.sym (sy .abar r r)) (C.dim r) (C.dim r), .add false (C.dim r) (C.dim c) L] :=
      pre_mk h2
    have hrec : ∀ s, s ≠ [] → s <+: L → factorFirst (guarded (q + 6)) (e + 1) (.add false (C.dim r) (C.dim c) s) =
        some (.add false (C.dim r) (C.dim c) s) := by
      intro s _ hs
      refine factorFirst_apart ((hpair.sublist hs.sublist).imp fun h => h.1.first) ?_ _ _ _
      have := hs.length_le
      omega
    have hrM : (reduceTerm (reduce (guarded (q + 6)) (e + 2)) (.mul false false (C.dim r) (C.dim c)
        [atom (.sym (sy .abar r r)) (C.dim r) (C.dim r), .add false (C.dim r) (C.dim c) L])).isSome = true := by
      refine reduceTerm_mul fun v hv ha => ?_
      simp only [List.mem_cons, List.not_mem_nil, or_false] at hv
      rcases hv with rfl | rfl
      · simp [isAdd] at ha
      · exact hred
    have hloop : ∀ n, ffJ (guarded (q + 6)) (factorFirst (guarded (q + 6)) (e + 1)) 0 (n + (u :: l).length) 1
        (pre (sy .abar r r) (C.dim r) (C.dim c) t) (L.map (pre (sy .abar r r) (C.dim r) (C.dim c)) ++ uTs C g r c) =
          if uTs C g r c = [] then some (.one (.mul false false (C.dim r) (C.dim c)
            [atom (.sym (sy .abar r r)) (C.dim r) (C.dim r), .add false (C.dim r) (C.dim c) L]))
          else ffJ (guarded (q + 6)) (factorFirst (guarded (q + 6)) (e + 1)) 0 n 1 (.mul false false (C.dim r) (C.dim c)
            [atom (.sym (sy .abar r r)) (C.dim r) (C.dim r), .add false (C.dim r) (C.dim c) L])
            (.mul false false (C.dim r) (C.dim c)
              [atom (.sym (sy .abar r r)) (C.dim r) (C.dim r), .add false (C.dim r) (C.dim c) L] :: uTs C g r c) := by
      intro n
      have := merge_loop (N := q + 5) (U := uTs C g r c) hne hrr hT (fun v hv => (hok v hv).2.1) hrec n (u :: l) [t]
        (by simp) (by simp) (by rw [hL]; rfl)
      rw [hM] at this
      rw [← this, hL]
      rfl
    have hlL : L.length = (u :: l).length + 1 := by rw [hL]; rfl
    by_cases hU : uTs C g r c = []
    · rw [hU, List.append_nil] at hfac hsc hloop ⊢
      refine reduce_mul hfac (combine_of hsc (factorFirst_one (n := e) (ti := pre (sy .abar r r) (C.dim r) (C.dim c) t)
        (x := atom (.sym (sy .abar r r)) (C.dim r) (C.dim r)) (y := .add false (C.dim r) (C.dim c) L) (neg' := false)
        (cm' := false) (r' := C.dim r) (c' := C.dim c) ?_ ?_ rfl)
        (factorLast_pair rfl)) fun v hv => ?_
      · rw [hL]
        rfl
      · have := hloop (e + 1 - (u :: l).length)
        rw [Nat.sub_add_cancel (by omega), if_pos rfl] at this
        exact this
      · simp only [List.mem_cons, List.not_mem_nil, or_false] at hv
        rcases hv with rfl | rfl
        · rfl
        · exact hred
    · have hpM : (.mul false false (C.dim r) (C.dim c) [atom (.sym (sy .abar r r)) (C.dim r) (C.dim r),
          .add false (C.dim r) (C.dim c) L] :: uTs C g r c).Pairwise (Apart (guardEq (q + 6))) := by
        refine all_pair (n := q + 4) (L := [.mul false false (C.dim r) (C.dim c) [atom (.sym (sy .abar r r)) (C.dim r) (C.dim r),
          .add false (C.dim r) (C.dim c) L]]) hC (by simp) ?_
        intro v hv
        rw [List.mem_singleton.mp hv]
        refine ⟨⟨_, _, Has.mul ?_ ?_ rfl rfl⟩, ?_⟩
        · intro w hw
          simp only [List.mem_cons, List.not_mem_nil, or_false] at hw
          rcases hw with rfl | rfl
          · exact atom_scalar hrr
          · exact add_scalar hne
        · intro w hw
          simp only [List.mem_cons, List.not_mem_nil, or_false] at hw
          rcases hw with rfl | rfl
          · trivial
          · intro x hx
            obtain ⟨⟨_, _, h⟩, -⟩ := hhas x hx
            exact cls_mono (by omega) h.cl
        · intro i j ho
          simp only [occ, occs, or_false] at ho
          rcases ho with ho | ho
          · simp [sy_inj] at ho
          · obtain ⟨x, hx, ho⟩ := occs_iff.mp ho
            exact (hhas x hx).2 i j ho
      have hff : factorFirst (guarded (q + 6)) (e + 2) (.add false (C.dim r) (C.dim c)
          (L.map (pre (sy .abar r r) (C.dim r) (C.dim c)) ++ uTs C g r c)) = some (.add false (C.dim r) (C.dim c)
            (.mul false false (C.dim r) (C.dim c) [atom (.sym (sy .abar r r)) (C.dim r) (C.dim r),
              .add false (C.dim r) (C.dim c) L] :: uTs C g r c)) := by
        have h0 : (L.map (pre (sy .abar r r) (C.dim r) (C.dim c)) ++ uTs C g r c)[0]? =
            some (pre (sy .abar r r) (C.dim r) (C.dim c) t) := by
          rw [hL]
          rfl
        have h1 := hloop (e + 1 - (u :: l).length)
        rw [Nat.sub_add_cancel (by omega), if_neg hU] at h1
        have h2' := ffJ_apart (R := guarded (q + 6)) (rec := factorFirst (guarded (q + 6)) (e + 1)) (ts := .mul false false (C.dim r)
          (C.dim c) [atom (.sym (sy .abar r r)) (C.dim r) (C.dim r), .add false (C.dim r) (C.dim c) L] :: uTs C g r c)
          (i := 0) (ti := .mul false false (C.dim r)
          (C.dim c) [atom (.sym (sy .abar r r)) (C.dim r) (C.dim r), .add false (C.dim r) (C.dim c) L])
          (e + 1 - (u :: l).length) 1 (by rw [List.length_cons]; omega)
          (fun i v hi hv => Or.inr (pair_at (hpM.imp Apart.first) (show 0 < i by omega) rfl hv))
        rw [h2'] at h1
        rw [factorFirst]
        have h3 := ffI_apart (R := guarded (q + 6)) (hpM.imp Apart.first) (rec := factorFirst (guarded (q + 6)) (e + 1))
          (m := e + 1) (by rw [List.length_cons]; omega) e 1 (by rw [List.length_cons]; omega)
        rw [ffI]
        simp only [h0, zero_add, h1, Option.bind_eq_bind, Option.bind_some, h3]
      refine reduce_add hfac (combine_of hsc hff (factorLast_apart (hpM.imp Apart.last) ?_ _ _ _)) fun v hv => ?_
      · rw [List.length_cons]
        omega
      · rcases List.mem_cons.mp hv with rfl | hv
        · exact hrM
        · exact red_uT hv

/-- Every block of the propagated covariance is reduced. -/
theorem pout_red (hC : NoOne C) (hz : ∀ r, z r r = true) {q f : ℕ} (hf : 2 * C.n + C.m + 12 ≤ f) :
    vTs C z d r c ++ uTs C g r c ≠ [] ∧
    (reduce (guarded (q + 6)) f (mk (C.dim r) (C.dim c) (vTs C z d r c ++ uTs C g r c))).isSome = true := by
  obtain ⟨e, rfl⟩ : ∃ e, f = e + 2 := ⟨f - 2, by omega⟩
  have tU : Terms (C.dim r) (C.dim c) (uTs C g r c) := Terms.flatMap fun l => terms_opt ⟨rfl, rfl, rfl⟩
  have tV : Terms (C.dim r) (C.dim c) (vTs C z d r c) := Terms.flatMap fun l => vT_ok hC r c l
  have hT := tV.append tU
  by_cases hr : ∃ k, k ≠ r ∧ z r k = true
  · obtain ⟨k, hk, hzk⟩ := hr
    rw [vTs_long hC hz hk hzk] at hT ⊢
    have hl := length_wTs (C := C) (z := z) (d := d) (r := r) c
    refine ⟨fun h => gTs_ne hz (wTs_ne hz r c) (List.append_eq_nil_iff.mp h).1, ?_⟩
    refine red_all (q := q + 4) hC (fac_row hC hz) (oth_row hC) hT (by omega) (fun l _ => red_row (q := q + 4) hC (by omega) l) ?_
    intro t ht
    obtain ⟨k, -, rfl⟩ := mem_wTs.mp ht
    exact red_wT
  · push Not at hr
    have hr' : ∀ k, k ≠ r → z r k = false := fun k hk => by simpa using hr k hk
    cases hd : d r with
    | true =>
      rw [vTs_ident hr' hz hd] at hT ⊢
      refine ⟨fun h => gTs_ne hz (by simp) (List.append_eq_nil_iff.mp h).1, ?_⟩
      refine red_all (q := q + 4) hC (fac_col hC) (oth_col hC) hT (by simp; omega) (fun l h => ?_) ?_
      · simp [colP, symb, isAdd] at h
      · intro t ht
        rw [List.mem_singleton.mp ht]
        rfl
    | false =>
      rw [vTs_first hr' hz hd]
      refine ⟨fun h => gTs_ne hz (by simp) (List.map_eq_nil_iff.mp (List.append_eq_nil_iff.mp h).1), ?_⟩
      exact red_common hC hz (by omega)

end

/-! ### The generator -/

theorem commitNew_some {m n : ℕ} {R : Rules} {f : ℕ} {k : Kind} {X : OMat m n}
    (h : ∀ r c, ∃ e, X r c = some e ∧ (reduce R f e).isSome = true) : ∀ l, (commitNew R f k X l).isSome = true
  | [] => rfl
  | (r, c) :: l => by
    obtain ⟨e, he, hr⟩ := h r c
    obtain ⟨e', hr⟩ := Option.isSome_iff_exists.mp hr
    obtain ⟨t, ht⟩ := Option.isSome_iff_exists.mp (commitNew_some (k := k) h l)
    simp only [commitNew, he, commit1, hr, ht, Option.bind_eq_bind, Option.bind_some]
    split_ifs <;> rfl

theorem commitTo_some {m n : ℕ} {R : Rules} {f : ℕ} {T X : OMat m n} (hT : ∀ r c, ∃ t, T r c = some t ∧ (target t).isSome = true)
    (h : ∀ r c, ∃ e, X r c = some e ∧ e.isZero = false ∧ (reduce R f e).isSome = true) : ∀ l, (commitTo R f T X l).isSome = true
  | [] => rfl
  | (r, c) :: l => by
    obtain ⟨e, he, hz, hr⟩ := h r c
    obtain ⟨e', hr⟩ := Option.isSome_iff_exists.mp hr
    obtain ⟨t, ht, hk⟩ := hT r c
    obtain ⟨k, hk⟩ := Option.isSome_iff_exists.mp hk
    obtain ⟨p, hp⟩ := Option.isSome_iff_exists.mp (commitTo_some hT h l)
    simp only [commitTo, he, hz, hr, ht, hk, hp, Option.bind_eq_bind, Option.bind_some, Bool.false_eq_true, if_false]
    rfl

theorem adjust_some {m n : ℕ} {R : Rules} {f : ℕ} {b : Bool} {T X : OMat m n}
    (hT : ∀ r c, ∃ t, T r c = some t ∧ (target t).isSome = true)
    (h : ∀ r c, ∃ e, X r c = some e ∧ (reduce R f e).isSome = true) : ∀ l, (adjust R f b T X l).isSome = true
  | [] => rfl
  | (r, c) :: l => by
    obtain ⟨e, he, hr⟩ := h r c
    obtain ⟨e', hr⟩ := Option.isSome_iff_exists.mp hr
    obtain ⟨t, ht, hk⟩ := hT r c
    obtain ⟨k, hk⟩ := Option.isSome_iff_exists.mp hk
    obtain ⟨p, hp⟩ := Option.isSome_iff_exists.mp (adjust_some (b := b) hT h l)
    simp only [adjust, he, hr, ht, hk, hp, Option.bind_eq_bind, Option.bind_some]
    split_ifs <;> rfl

/-- The propagation is generated for every configuration. -/
theorem propagate_some (hC : NoOne C) (hF : Fixed C) {q f : ℕ} (hf : 2 * C.n + C.m + 12 ≤ f) :
    (propagate C (guarded (q + 6)) f).isSome = true := by
  obtain ⟨z, d, hz, hA⟩ := newM_abar hC
  obtain ⟨g, hB⟩ := newM_bbar hC
  obtain ⟨s1, h1⟩ := Option.isSome_iff_exists.mp (commitNew_some (R := guarded (q + 6)) (f := f) (k := .abar) (X := abarM C)
    (fun r c => ⟨_, (abar_mk hC r c).1, abar_red hC hF (by omega) r c⟩) (places _ _))
  obtain ⟨e, rfl⟩ : ∃ e, f = e + 1 := ⟨f - 1, by omega⟩
  obtain ⟨s2, h2⟩ := Option.isSome_iff_exists.mp (commitNew_some (R := guarded (q + 6)) (f := e + 1) (k := .bbar) (X := bbarM C)
    (fun r c => bbar_red hC r c) (places _ _))
  obtain ⟨s3, h3⟩ := Option.isSome_iff_exists.mp (commitTo_some (R := guarded (q + 6)) (f := e + 1) (T := covM C .covOut)
    (X := poutM C (newM .abar (abarM C)) (newM .bbar (bbarM C))) (fun r c => ⟨_, rfl, rfl⟩)
    (fun r c => by
      obtain ⟨h, t1, t2⟩ := pout_mk (d := d) hC hz hA hB r c
      obtain ⟨h4, h5⟩ := pout_red (d := d) (g := g) (r := r) (c := c) hC hz (q := q) hf
      refine ⟨_, h, ?_, h5⟩
      rw [mk_isZero (t1.append t2)]
      simpa [List.isEmpty_iff] using h4) (upper _ _))
  obtain ⟨s4, h4⟩ := Option.isSome_iff_exists.mp (adjust_some (R := guarded (q + 6)) (f := e + 1) (b := false) (T := covM C .covOut)
    (X := processCov C) (fun r c => ⟨_, rfl, rfl⟩) (fun r c => ⟨_, rfl, by
      rw [reduce_other]
      · rfl
      · split_ifs <;> rfl⟩) (upper _ _))
  simp only [propagate, h1, h2, h3, h4, Option.bind_eq_bind, Option.bind_some]
  rfl

end Verif.Props.EkfGen
