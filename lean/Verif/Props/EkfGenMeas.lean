import Verif.Props.EkfGenAll

/-!
The code for a measurement is generated for every configuration.
-/

namespace Verif.Props.EkfGen

open Verif.Model.Symb Verif.Model.Symb.Blk Verif.Model.EkfGen Verif.Spec.Symb Verif.Spec.EkfGen Verif.Lemmas.Symb
open Verif.Props.Symb

variable {C : Cfg} {D : MCfg C}

/-- A block that is neither zero nor the identity is committed under its name. -/
theorem newM_symb {m n : ℕ} {k : Kind} {X : OMat m n} {r : Fin m} {c : Fin n} {e : Blk} {a b : Dim} (h : X r c = some e)
    (hz : e.isZero = false) (hi : e.isIdent = false) (hs : e.shape = (a, b)) : newM k X r c = some (symb k r c a b) := by
  unfold newM newBlk Blk.rows Blk.cols
  simp [h, hz, hi, hs]

/-- The product of a column of one block and a block. -/
theorem mulM_one {m n : ℕ} {A : OMat m 1} {B : OMat 1 n} {r : Fin m} {c : Fin n} {a b d : Dim} {x y : Blk} (hx : A r 0 = some x)
    (hy : B 0 c = some y) (nx : Nice a b x) (ny : Nice b d y) (ix : x.isIdent = false) (iy : y.isIdent = false)
    (h1 : (a, b) ≠ one1) (h2 : (b, d) ≠ one1) :
    mulM A B r c = some (.mul false false a d (x.mulTerms ++ y.mulTerms)) := by
  have h := mulM_mk (A := A) (B := B) (r := r) (c := c) (a := a) (b := d) (X := fun _ => x) (Y := fun _ => y)
    (M := fun _ => [.mul false false a d (x.mulTerms ++ y.mulTerms)]) (fun _ => Terms.one ⟨rfl, rfl, rfl⟩)
    (fun i => by rw [← hx, show i = (0 : Fin 1) from Subsingleton.elim (α := Fin 1) i 0])
    (fun i => by rw [← hy, show i = (0 : Fin 1) from Subsingleton.elim (α := Fin 1) i 0])
    (by unfold Blk.rows; rw [nx.shape]) (by unfold Blk.cols; rw [ny.shape])
    (fun _ => (times_mul nx ny ix iy h1 h2).1)
  rw [h]
  rfl

/-! ### The covariance of the state and the measurement -/

variable (D) in
def hT (r c : Fin (C.n + 1)) : Blk :=
  .mul false false (C.dim r) D.dim [symb .cov r c (C.dim r) (C.dim c), .tr false (symb .dzdx 0 c D.dim (C.dim c))]

variable (D) in
def hTs (r : Fin (C.n + 1)) : List Blk := (List.finRange (C.n + 1)).flatMap fun c => opt (D.used c) (hT D r c)

variable (D) in
def iT (c : Fin (C.n + 1)) : Blk :=
  .mul false false D.dim D.dim [symb .dzdx 0 c D.dim (C.dim c), symb .pht c 0 (C.dim c) D.dim]

variable (D) in
def iTs : List Blk := (List.finRange (C.n + 1)).flatMap fun c => opt (D.used c) (iT D c)

theorem opts_ne {f : Fin (C.n + 1) → Blk} {c : Fin (C.n + 1)} (h : D.used c = true) :
    ((List.finRange (C.n + 1)).flatMap fun c => opt (D.used c) (f c)) ≠ [] := by
  intro he
  have : f c ∈ ((List.finRange (C.n + 1)).flatMap fun c => opt (D.used c) (f c)) :=
    List.mem_flatMap.mpr ⟨c, List.mem_finRange c, mem_opt.mpr ⟨h, rfl⟩⟩
  rw [he] at this
  exact absurd this List.not_mem_nil

theorem measJac_mk (r : Fin 1) (c : Fin (C.n + 1)) :
    measJac D r c = some (mk D.dim (C.dim c) (opt (D.used c) (symb .dzdx 0 c D.dim (C.dim c)))) := by
  rw [Subsingleton.elim r 0]
  unfold measJac opt
  cases D.used c <;> rfl

theorem terms_hTs (r : Fin (C.n + 1)) : Terms (C.dim r) D.dim (hTs D r) := Terms.flatMap fun _ => terms_opt ⟨rfl, rfl, rfl⟩
theorem terms_iTs : Terms D.dim D.dim (iTs D) := Terms.flatMap fun _ => terms_opt ⟨rfl, rfl, rfl⟩

theorem pht_mk (hC : NoOne C) (hD : D.dim ≠ .num 1) (r : Fin (C.n + 1)) (j : Fin 1) :
    phtM D r j = some (mk (C.dim r) D.dim (hTs D r)) := by
  have hy : ∀ c, trM (measJac D) c j = some (mk (C.dim c) D.dim (opt (D.used c) (.tr false (symb .dzdx 0 c D.dim (C.dim c))))) := by
    intro c
    unfold trM
    simp only [measJac_mk, Option.bind_eq_bind, Option.bind_some]
    cases D.used c
    · rfl
    · exact congrArg some (transpose_symb (ne_left hD _))
  refine mulM_mk (M := fun c => opt (D.used c) (hT D r c)) (fun _ => terms_opt ⟨rfl, rfl, rfl⟩) (fun c => rfl) hy rfl ?_ fun c => ?_
  · cases D.used 0 <;> rfl
  · have h1 := ne_left (hC.1 r) (C.dim c)
    have h2 := ne_left (hC.1 c) D.dim
    have := times_opt (p := true) (q := D.used c) (nice_symb .cov r c h1)
      (nice_of (x := .tr false (symb .dzdx 0 c D.dim (C.dim c))) rfl rfl rfl h2) rfl rfl h1 h2
    rw [Bool.true_and] at this
    exact this

theorem newM_pht (hC : NoOne C) (hD : D.dim ≠ .num 1) (hu : ∃ c, D.used c = true) (r : Fin (C.n + 1)) (j : Fin 1) :
    newM .pht (phtM D) r j = some (symb .pht r 0 (C.dim r) D.dim) := by
  obtain ⟨c, hc⟩ := hu
  have hn : hTs D r ≠ [] := opts_ne hc
  rw [Subsingleton.elim j 0]
  refine newM_symb (pht_mk hC hD r 0) ?_ (mk_noIdent fun t ht => ?_) (mk_shape (terms_hTs r))
  · rw [mk_isZero (terms_hTs r)]
    simpa [List.isEmpty_iff] using hn
  · obtain ⟨k, -, hk⟩ := List.mem_flatMap.mp ht
    rw [(mem_opt.mp hk).2]
    rfl

theorem hpht_mk (hC : NoOne C) (hD : D.dim ≠ .num 1) (hu : ∃ c, D.used c = true) (i j : Fin 1) :
    hphtM D i j = some (mk D.dim D.dim (iTs D)) := by
  refine mulM_mk (M := fun c => opt (D.used c) (iT D c)) (fun _ => terms_opt ⟨rfl, rfl, rfl⟩) (fun c => measJac_mk i c)
    (fun c => newM_pht hC hD hu c j) ?_ rfl fun c => ?_
  · cases D.used 0 <;> rfl
  · have h1 := ne_left hD (C.dim c)
    have h2 := ne_left (hC.1 c) D.dim
    have := times_opt (p := D.used c) (q := true) (nice_symb .dzdx 0 c h1) (nice_symb .pht c 0 h2) rfl rfl h1 h2
    rw [Bool.and_true] at this
    exact this

theorem newM_hpht (hC : NoOne C) (hD : D.dim ≠ .num 1) (hu : ∃ c, D.used c = true) (i j : Fin 1) :
    newM .hpht (hphtM D) i j = some (symb .hpht 0 0 D.dim D.dim) := by
  have h := hpht_mk hC hD hu
  obtain ⟨c, hc⟩ := hu
  have hn : iTs D ≠ [] := opts_ne hc
  rw [Subsingleton.elim j 0, Subsingleton.elim i 0]
  refine newM_symb (h 0 0) ?_ (mk_noIdent fun t ht => ?_) (mk_shape terms_iTs)
  · rw [mk_isZero terms_iTs]
    simpa [List.isEmpty_iff] using hn
  · obtain ⟨k, -, hk⟩ := List.mem_flatMap.mp ht
    rw [(mem_opt.mp hk).2]
    rfl

theorem gain_mk (hC : NoOne C) (hD : D.dim ≠ .num 1) (hu : ∃ c, D.used c = true) (r : Fin (C.n + 1)) (j : Fin 1) :
    gainM D r j = some (.mul false false (C.dim r) D.dim [symb .pht r 0 (C.dim r) D.dim, symb .sinv 0 0 D.dim D.dim]) := by
  rw [Subsingleton.elim j 0]
  exact mulM_one (newM_pht hC hD hu r 0) rfl (nice_symb _ _ _ (ne_left (hC.1 r) _)) (nice_symb _ _ _ (ne_left hD _)) rfl rfl
    (ne_left (hC.1 r) _) (ne_left hD _)

theorem newM_gain (hC : NoOne C) (hD : D.dim ≠ .num 1) (hu : ∃ c, D.used c = true) (r : Fin (C.n + 1)) (j : Fin 1) :
    newM .gain (gainM D) r j = some (symb .gain r 0 (C.dim r) D.dim) := by
  rw [Subsingleton.elim j 0]
  exact newM_symb (gain_mk hC hD hu r 0) rfl rfl rfl

theorem corr_mk (hC : NoOne C) (hD : D.dim ≠ .num 1) (hu : ∃ c, D.used c = true) (r : Fin (C.n + 1)) (j : Fin 1) :
    corrM D r j = some (.mul false false (C.dim r) (.num 1) [symb .gain r 0 (C.dim r) D.dim, symb .res 0 0 D.dim (.num 1)]) := by
  rw [Subsingleton.elim j 0]
  exact mulM_one (newM_gain hC hD hu r 0) rfl (nice_symb _ _ _ (ne_left (hC.1 r) _)) (nice_symb _ _ _ (ne_left hD _)) rfl rfl
    (ne_left (hC.1 r) _) (ne_left hD _)

theorem less_mk (hC : NoOne C) (hD : D.dim ≠ .num 1) (hu : ∃ c, D.used c = true) (r c : Fin (C.n + 1)) :
    lessM D r c = some (.mul false false (C.dim r) (C.dim c) [symb .gain r 0 (C.dim r) D.dim,
      .tr false (symb .pht c 0 (C.dim c) D.dim)]) := by
  have hy : trM (newM .pht (phtM D)) 0 c = some (.tr false (symb .pht c 0 (C.dim c) D.dim)) := by
    unfold trM
    simp only [newM_pht hC hD hu, Option.bind_eq_bind, Option.bind_some]
    exact congrArg some (transpose_symb (ne_left (hC.1 c) _))
  exact mulM_one (newM_gain hC hD hu r 0) hy (nice_symb _ _ _ (ne_left (hC.1 r) _)) (nice_of rfl rfl rfl (ne_left hD _)) rfl rfl
    (ne_left (hC.1 r) _) (ne_left hD _)

/-! ### Reduction -/

theorem has_hT {n : ℕ} (hC : NoOne C) (r c : Fin (C.n + 1)) : Has (n + 2) (hT D r c) (symb .cov r c (C.dim r) (C.dim c))
    (.tr false (symb .dzdx 0 c D.dim (C.dim c))) := by
  refine Has.mul ?_ ?_ rfl rfl
  · intro t ht
    simp only [List.mem_cons, List.not_mem_nil, or_false] at ht
    rcases ht with rfl | rfl
    · exact symb_scalar (ne_left (hC.1 r) _)
    · exact decide_eq_false (ne_left (hC.1 c) _)
  · intro t ht
    simp only [List.mem_cons, List.not_mem_nil, or_false] at ht
    rcases ht with rfl | rfl
    · trivial
    · rfl

theorem has_iT {n : ℕ} (hC : NoOne C) (hD : D.dim ≠ .num 1) (c : Fin (C.n + 1)) :
    Has (n + 2) (iT D c) (symb .dzdx 0 c D.dim (C.dim c)) (symb .pht c 0 (C.dim c) D.dim) := by
  refine Has.mul ?_ ?_ rfl rfl
  · intro t ht
    simp only [List.mem_cons, List.not_mem_nil, or_false] at ht
    rcases ht with rfl | rfl
    · exact symb_scalar (ne_left hD _)
    · exact symb_scalar (ne_left (hC.1 c) _)
  · intro t ht
    simp only [List.mem_cons, List.not_mem_nil, or_false] at ht
    rcases ht with rfl | rfl
    · trivial
    · trivial

theorem hTs_pair {n : ℕ} (hC : NoOne C) (r : Fin (C.n + 1)) : (hTs D r).Pairwise (Apart (guardEq (n + 2))) := by
  refine pairwise_opt fun i j _ _ hij => ?_
  have hij' : ¬ i.val = j.val := fun e => hij (Fin.ext e)
  refine (has_hT hC r i).apart (has_hT hC r j) ⟨.sym (sy .cov r i), ?_⟩ ⟨.sym (sy .cov r i), ?_⟩ ⟨.sym (sy .dzdx 0 i), ?_⟩
  · unfold hT
    simp [occ, occs, occ_symb, hij']
  · simp [occ_symb, hij']
  · simp [occ, occ_symb, hij']

theorem iTs_pair {n : ℕ} (hC : NoOne C) (hD : D.dim ≠ .num 1) : (iTs D).Pairwise (Apart (guardEq (n + 2))) := by
  refine pairwise_opt fun i j _ _ hij => ?_
  have hij' : ¬ i.val = j.val := fun e => hij (Fin.ext e)
  refine (has_iT hC hD i).apart (has_iT hC hD j) ⟨.sym (sy .dzdx 0 i), ?_⟩ ⟨.sym (sy .dzdx 0 i), ?_⟩ ⟨.sym (sy .pht i 0), ?_⟩
  · unfold iT
    simp [occ, occs, occ_symb, hij']
  · simp [occ_symb, hij']
  · simp [occ_symb, hij']

theorem length_opts {f : Fin (C.n + 1) → Blk} :
    ((List.finRange (C.n + 1)).flatMap fun c => opt (D.used c) (f c)).length ≤ C.n + 1 := by
  have := length_flatMap_opt (p := fun c => D.used c) (t := f) (List.finRange (C.n + 1))
  rw [List.length_finRange] at this
  exact this

/-- A sum of products of symbols that have nothing in common. -/
theorem red_opts {n e : ℕ} {a b : Dim} {f : Fin (C.n + 1) → Blk} (ht : ∀ c, Term a b (f c))
    (hr : ∀ (rec : Blk → Option Blk) c, (reduceTerm rec (f c)).isSome = true)
    (hp : ((List.finRange (C.n + 1)).flatMap fun c => opt (D.used c) (f c)).Pairwise (Apart (guardEq (n + 2)))) (he : C.n + 2 < e) :
    (reduce (guarded (n + 2)) (e + 1) (mk a b ((List.finRange (C.n + 1)).flatMap fun c => opt (D.used c) (f c)))).isSome = true := by
  have hl := length_opts (D := D) (f := f)
  have hT : Terms a b ((List.finRange (C.n + 1)).flatMap fun c => opt (D.used c) (f c)) := Terms.flatMap fun c => terms_opt (ht c)
  by_cases h2 : 2 ≤ ((List.finRange (C.n + 1)).flatMap fun c => opt (D.used c) (f c)).length
  · rw [mk_two h2]
    refine reduce_apart hp (by omega) (fun t h => ?_) _ _ _
    obtain ⟨k, -, hk⟩ := List.mem_flatMap.mp h
    rw [(mem_opt.mp hk).2]
    exact hr _ k
  · rw [reduce_other]
    · rfl
    · match h : ((List.finRange (C.n + 1)).flatMap fun c => opt (D.used c) (f c)), hT, h2 with
      | [], _, _ => rfl
      | [t], hT, _ => exact (hT t (by simp)).noAdd
      | _ :: _ :: _, _, h2 => simp at h2

theorem red_pht {n e : ℕ} (hC : NoOne C) (he : C.n + 2 < e) (r : Fin (C.n + 1)) :
    (reduce (guarded (n + 2)) (e + 1) (mk (C.dim r) D.dim (hTs D r))).isSome = true := by
  refine red_opts (fun c => ⟨rfl, rfl, rfl⟩) (fun rec c => reduceTerm_plain fun t ht => ?_) (hTs_pair hC r) he
  simp only [List.mem_cons, List.not_mem_nil, or_false] at ht
  rcases ht with rfl | rfl <;> rfl

theorem red_hpht {n e : ℕ} (hC : NoOne C) (hD : D.dim ≠ .num 1) (he : C.n + 2 < e) :
    (reduce (guarded (n + 2)) (e + 1) (mk D.dim D.dim (iTs D))).isSome = true := by
  refine red_opts (fun c => ⟨rfl, rfl, rfl⟩) (fun rec c => reduceTerm_plain fun t ht => ?_) (iTs_pair hC hD) he
  simp only [List.mem_cons, List.not_mem_nil, or_false] at ht
  rcases ht with rfl | rfl <;> rfl

/-- The update is generated for every measurement that depends on some state. -/
theorem measUpdate_some (hC : NoOne C) (hD : D.dim ≠ .num 1) (hu : ∃ c, D.used c = true) {q f : ℕ} (hf : C.n + 4 ≤ f) :
    (measUpdate (guarded (q + 2)) f D).isSome = true := by
  obtain ⟨e, rfl⟩ : ∃ e, f = e + 1 := ⟨f - 1, by omega⟩
  obtain ⟨s1, h1⟩ := Option.isSome_iff_exists.mp (commitNew_some (R := guarded (q + 2)) (f := e + 1) (k := .pht) (X := phtM D)
    (fun r c => ⟨_, pht_mk hC hD r c, red_pht hC (by omega) r⟩) (places _ _))
  obtain ⟨s2, h2⟩ := Option.isSome_iff_exists.mp (commitNew_some (R := guarded (q + 2)) (f := e + 1) (k := .hpht) (X := hphtM D)
    (fun r c => ⟨_, hpht_mk hC hD hu r c, red_hpht hC hD (by omega)⟩) (places _ _))
  obtain ⟨s3, h3⟩ := Option.isSome_iff_exists.mp (adjust_some (R := guarded (q + 2)) (f := e + 1) (b := false)
    (T := newM .hpht (hphtM D)) (X := noiseM D) (fun r c => ⟨_, newM_hpht hC hD hu r c, rfl⟩)
    (fun r c => ⟨_, rfl, by rw [reduce_other rfl]; rfl⟩) (upper _ _))
  have h4 : invert D = some [.inv (sy .sinv 0 0) D.dim (symb .hpht 0 0 D.dim D.dim)] := by
    unfold invert
    simp only [newM_hpht hC hD hu, Option.bind_eq_bind, Option.bind_some]
  obtain ⟨s5, h5⟩ := Option.isSome_iff_exists.mp (commitNew_some (R := guarded (q + 2)) (f := e + 1) (k := .gain) (X := gainM D)
    (fun r c => ⟨_, gain_mk hC hD hu r c, by rw [reduce_other rfl]; rfl⟩) (places _ _))
  obtain ⟨s6, h6⟩ := Option.isSome_iff_exists.mp (commitTo_some (R := guarded (q + 2)) (f := e + 1) (T := errM C) (X := corrM D)
    (fun r c => ⟨_, rfl, rfl⟩) (fun r c => ⟨_, corr_mk hC hD hu r c, rfl, by rw [reduce_other rfl]; rfl⟩) (places _ _))
  obtain ⟨s7, h7⟩ := Option.isSome_iff_exists.mp (adjust_some (R := guarded (q + 2)) (f := e + 1) (b := true)
    (T := covM C .cov) (X := lessM D) (fun r c => ⟨_, rfl, rfl⟩)
    (fun r c => ⟨_, less_mk hC hD hu r c, by rw [reduce_other rfl]; rfl⟩) (upper _ _))
  simp only [measUpdate, h1, h2, h3, h4, h5, h6, h7, Option.bind_eq_bind, Option.bind_some]
  rfl

end Verif.Props.EkfGen
