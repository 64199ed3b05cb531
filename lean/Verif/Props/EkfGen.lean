import Verif.Props.SymbGuard
import Verif.Props.SymbDense
import Verif.Spec.EkfGen
import Mathlib.Tactic.Abel
import Mathlib.Tactic.Module

/-!
C107: matrices of blocks mean matrices, and committing them to symbols keeps their meaning.
-/

namespace Verif.Props.EkfGen

open Verif.Model.Symb Verif.Model.Symb.Blk Verif.Model.EkfGen Verif.Spec.Symb Verif.Spec.EkfGen Verif.Lemmas.Symb
open Verif.Props.Symb

/-- A computed matrix of blocks has the sizes `dr` by `dc` and means `F`. -/
def Den {m n : ℕ} (X : OMat m n) (dr : Fin m → Dim) (dc : Fin n → Dim) (F : ∀ N : ℕ, Val N → BM N m n) : Prop :=
  ∀ r c e, X r c = some e → good e ∧ e.shape = (dr r, dc c) ∧ ∀ (N : ℕ) (V : Val N), den V e = F N V r c

section ops

variable {m k n : ℕ} {dr : Fin m → Dim} {dc : Fin n → Dim}

theorem den_symb (q : Kind) (r c : ℕ) {a b : Dim} (h : (a, b) ≠ one1) :
    good (symb q r c a b) ∧ (symb q r c a b).shape = (a, b) ∧
      ∀ (N : ℕ) (V : Val N), den V (symb q r c a b) = blockOf V q r c a b := by
  refine ⟨?_, rfl, fun N V => ?_⟩
  · unfold symb
    rw [good]
    exact ⟨fun h => absurd h (by simp), fun h => absurd h (by simp), fun h => absurd h (by simp)⟩
  · unfold symb
    rw [den, denName, if_neg h, show sgn false = 1 from rfl, one_smul]
    rfl

theorem den_scalar_symb (q : Kind) :
    good (symb q 0 0 (.num 1) (.num 1)) ∧ (symb q 0 0 (.num 1) (.num 1)).isScalar = true ∧
      ∀ (N : ℕ) (V : Val N), den V (symb q 0 0 (.num 1) (.num 1)) = numOf V q • 1 := by
  refine ⟨?_, rfl, fun N V => ?_⟩
  · unfold symb
    rw [good]
    exact ⟨fun h => absurd h (by simp), fun h => absurd h (by simp), fun h => absurd h (by simp)⟩
  · unfold symb
    rw [den, denName, if_pos rfl, show sgn false = 1 from rfl, one_smul]
    rfl

theorem den_zero (a b : Dim) : good (c0 a b) ∧ (c0 a b).shape = (a, b) ∧
    ∀ (N : ℕ) (V : Val N), den V (c0 a b) = 0 := ⟨good_c0 a b, rfl, fun _ _ => den_c0 a b⟩

theorem den_addM {A B : OMat m n} {F G : ∀ N : ℕ, Val N → BM N m n} (hA : Den A dr dc F) (hB : Den B dr dc G) :
    Den (addM A B) dr dc fun N V => F N V + G N V := by
  intro r c e h
  unfold addM at h
  simp only [Option.bind_eq_bind, Option.bind_eq_some_iff] at h
  obtain ⟨a, h1, b, h2, h3⟩ := h
  obtain ⟨a1, a2, a3⟩ := hA r c a h1
  obtain ⟨b1, b2, b3⟩ := hB r c b h2
  obtain ⟨g1, g2, -, g3⟩ := C53_add_partial a1 b1 h3
  exact ⟨g1, g2.trans a2, fun N V => by rw [g3, a3, b3]; rfl⟩

theorem den_scaleM {s : Blk} {x : ∀ N : ℕ, Val N → ℝ} (hg : good s) (hs : s.isScalar = true)
    (hx : ∀ (N : ℕ) (V : Val N), den V s = x N V • 1) {A : OMat m n} {F : ∀ N : ℕ, Val N → BM N m n} (hA : Den A dr dc F) :
    Den (scaleM s A) dr dc fun N V => x N V • F N V := by
  intro r c e h
  unfold scaleM at h
  simp only [Option.bind_eq_bind, Option.bind_eq_some_iff] at h
  obtain ⟨a, h1, h3⟩ := h
  obtain ⟨a1, a2, a3⟩ := hA r c a h1
  obtain ⟨g1, g2, g3⟩ := C53_mul_partial hg a1 (Or.inl hs) h3
  rw [mulShape_scalar_left hs, Option.some.injEq] at g2
  refine ⟨g1, g2.symm.trans a2, fun N V => ?_⟩
  rw [g3, ← g2, hx, smul_mul_assoc, one_mul, norm_smul', norm_den a1, a3]
  rfl

theorem dotO_ok {s : Dim × Dim} (hs : s ≠ one1) : ∀ (l : List (Fin k)) {A : Fin k → Option Blk} {B : Fin k → Option Blk}
    {F G : ∀ N : ℕ, Val N → Fin k → M N}
    (_ : ∀ i a, A i = some a → good a ∧ a.rows = s.1 ∧ ∀ (N : ℕ) (V : Val N), den V a = F N V i)
    (_ : ∀ i b, B i = some b → good b ∧ b.cols = s.2 ∧ ∀ (N : ℕ) (V : Val N), den V b = G N V i)
    (_ : ∀ i a b, A i = some a → B i = some b → a.cols = b.rows) {acc e : Blk} (_ : good acc) (_ : acc.shape = s)
    (_ : dotO acc (l.map fun i => (A i, B i)) = some e),
    good e ∧ e.shape = s ∧ ∀ (N : ℕ) (V : Val N), den V e = den V acc + (l.map fun i => F N V i * G N V i).sum := by
  intro l
  induction l with
  | nil =>
    intro A B F G _ _ _ acc e hg hsh h
    obtain rfl := Option.some.inj h
    exact ⟨hg, hsh, fun N V => by simp⟩
  | cons i l ih =>
    intro A B F G hA hB hAB acc e hg hsh h
    rw [List.map_cons, dotO] at h
    simp only [Option.bind_eq_bind, Option.bind_eq_some_iff] at h
    obtain ⟨a, h1, b, h2, p, h3, acc', h4, h5⟩ := h
    obtain ⟨a1, a2, a3⟩ := hA i a h1
    obtain ⟨b1, b2, b3⟩ := hB i b h2
    have hc := hAB i a b h1 h2
    obtain ⟨p1, p2, p3⟩ := C53_mul_partial a1 b1 (Or.inr (Or.inr hc)) h3
    rw [mulShape_conf hc, Option.some.injEq] at p2
    have hps : p.shape = s := by rw [← p2, a2, b2]
    obtain ⟨q1, q2, -, q3⟩ := C53_add_partial hg p1 h4
    obtain ⟨z1, z2, z3⟩ := ih hA hB hAB q1 (q2.trans hsh) h5
    refine ⟨z1, z2, fun N V => ?_⟩
    rw [z3, q3, p3, hps, norm_of_ne hs, a3, b3, List.map_cons, List.sum_cons, add_assoc]

theorem den_mulM {dk : Fin (k + 1) → Dim} {A : OMat m (k + 1)} {B : OMat (k + 1) n} {F : ∀ N : ℕ, Val N → BM N m (k + 1)}
    {G : ∀ N : ℕ, Val N → BM N (k + 1) n} (hne : ∀ r c, (dr r, dc c) ≠ one1) (hA : Den A dr dk F) (hB : Den B dk dc G) :
    Den (mulM A B) dr dc fun N V => F N V * G N V := by
  intro r c e h
  unfold mulM at h
  simp only [Option.bind_eq_bind, Option.bind_eq_some_iff] at h
  obtain ⟨a, h1, b, h2, h3⟩ := h
  obtain ⟨-, a2, -⟩ := hA r 0 a h1
  obtain ⟨-, b2, -⟩ := hB 0 c b h2
  have e1 : a.rows = dr r := by
    unfold Blk.rows
    rw [a2]
  have e2 : b.cols = dc c := by
    unfold Blk.cols
    rw [b2]
  rw [e1, e2] at h3
  obtain ⟨g1, g2, g3⟩ := dotO_ok (s := (dr r, dc c)) (hne r c) (List.finRange (k + 1)) (A := fun i => A r i)
    (B := fun i => B i c) (F := fun N V i => F N V r i) (G := fun N V i => G N V i c)
    (fun i a hi => by
      obtain ⟨x1, x2, x3⟩ := hA r i a hi
      refine ⟨x1, ?_, x3⟩
      unfold Blk.rows
      rw [x2])
    (fun i b hi => by
      obtain ⟨x1, x2, x3⟩ := hB i c b hi
      refine ⟨x1, ?_, x3⟩
      unfold Blk.cols
      rw [x2])
    (fun i a b ha hb => by
      obtain ⟨-, x2, -⟩ := hA r i a ha
      obtain ⟨-, y2, -⟩ := hB i c b hb
      unfold Blk.cols Blk.rows
      rw [x2, y2])
    (good_c0 _ _) rfl h3
  refine ⟨g1, g2, fun N V => ?_⟩
  rw [g3, den_c0, zero_add, ← List.ofFn_eq_map, List.sum_ofFn]
  exact (Matrix.mul_apply (M := F N V) (N := G N V)).symm

theorem den_trM {A : OMat m n} {F : ∀ N : ℕ, Val N → BM N m n} (hA : Den A dr dc F) :
    Den (trM A) dc dr fun N V => tb (F N V) := by
  intro c r e h
  unfold trM at h
  simp only [Option.bind_eq_bind, Option.bind_eq_some_iff, Option.some.injEq] at h
  obtain ⟨a, h1, rfl⟩ := h
  obtain ⟨a1, a2, a3⟩ := hA r c a h1
  obtain ⟨t1, t2, t3⟩ := C53_tr_partial a1
  exact ⟨t1, by rw [t2, a2]; rfl, fun N V => by rw [t3, a3]; rfl⟩

end ops

/-! ### Storage -/

/-- Two valuations that differ only in symbols of kind `k`. -/
def Off {N : ℕ} (k : Kind) (V W : Val N) : Prop := V.dim = W.dim ∧ ∀ s, (∀ r c, s ≠ sy k r c) → V.mat s = W.mat s

theorem Off.refl {N : ℕ} (k : Kind) (V : Val N) : Off k V V := ⟨rfl, fun _ _ => rfl⟩
theorem Off.trans {N : ℕ} {k : Kind} {V W U : Val N} (h : Off k V W) (h' : Off k W U) : Off k V U :=
  ⟨h.1.trans h'.1, fun s hs => (h.2 s hs).trans (h'.2 s hs)⟩

theorem code_inj {j k : Kind} (h : j.code = k.code) : j = k := by
  cases j <;> cases k <;> first | rfl | (exact absurd h (by decide))

theorem sy_inj {j k : Kind} {r c r' c' : ℕ} : sy j r c = sy k r' c' ↔ j = k ∧ r = r' ∧ c = c' := by
  unfold sy
  rw [Nat.pair_eq_pair, Nat.pair_eq_pair]
  exact ⟨fun h => ⟨code_inj h.1, h.2⟩, fun h => ⟨by rw [h.1], h.2⟩⟩

theorem Off.size {N : ℕ} {k : Kind} {V W : Val N} (h : Off k V W) (d : Dim) : V.size d = W.size d := by
  cases d with
  | num n => rfl
  | var i => exact congrFun h.1 i

theorem Off.proj {N : ℕ} {k : Kind} {V W : Val N} (h : Off k V W) (d : Dim) : proj V d = proj W d := by
  unfold Verif.Spec.Symb.proj
  rw [h.size d]

theorem Off.blockOf {N : ℕ} {k : Kind} {V W : Val N} (h : Off k V W) {j : Kind} (hj : j ≠ k) (r c : ℕ) (a b : Dim) :
    blockOf V j r c a b = blockOf W j r c a b := by
  unfold Verif.Spec.EkfGen.blockOf
  rw [h.proj, h.proj, h.2 _ fun r' c' e => hj (sy_inj.1 e).1]

theorem Off.numOf {N : ℕ} {k : Kind} {V W : Val N} (h : Off k V W) {j : Kind} (hj : j ≠ k) : numOf V j = numOf W j := by
  unfold Verif.Spec.EkfGen.numOf
  rw [h.2 _ fun r' c' e => hj (sy_inj.1 e).1]

theorem put_off {N : ℕ} (V : Val N) (k : Kind) (r c : ℕ) (X : M N) : Off k V (put V (sy k r c) X) :=
  ⟨rfl, fun s hs => by
    unfold put
    funext a b
    exact (if_neg (hs r c)).symm⟩

theorem put_same {N : ℕ} (V : Val N) (k : ℕ) (X : M N) (a b : Dim) : (put V k X).mat k a b = X := if_pos rfl

theorem put_other {N : ℕ} (V : Val N) {k k' : ℕ} (X : M N) (h : k' ≠ k) : (put V k X).mat k' = V.mat k' := by
  funext a b
  exact if_neg h

theorem put_size {N : ℕ} (V : Val N) (k : ℕ) (X : M N) (d : Dim) : (put V k X).size d = V.size d := by
  cases d <;> rfl

theorem put_proj {N : ℕ} (V : Val N) (k : ℕ) (X : M N) (d : Dim) : proj (put V k X) d = proj V d := by
  unfold proj
  rw [put_size]

theorem proj_empty {N : ℕ} {V : Val N} {d : Dim} (h : V.size d = 0) : proj V d = 0 := by
  unfold proj
  rw [h]
  ext i j
  rw [Matrix.diagonal_apply]
  split_ifs with _ h
  · omega
  · rfl
  · rfl

theorem pfit_empty {N : ℕ} {V : Val N} {a b : Dim} {X : M N} (h : PFit V a b X) (he : V.size a = 0 ∨ V.size b = 0) :
    X = 0 := by
  rcases he with he | he
  · rw [← h.1, proj_empty he, zero_mul]
  · rw [← h.2, proj_empty he, mul_zero]

theorem blockOf_fit {N : ℕ} (V : Val N) (k : Kind) (r c : ℕ) (a b : Dim) : PFit V a b (blockOf V k r c a b) := by
  unfold blockOf
  constructor
  · rw [← mul_assoc, ← mul_assoc, proj_idem]
  · rw [mul_assoc, mul_assoc, proj_idem, mul_assoc]

theorem proj_fit {N : ℕ} {V : Val N} {a b : Dim} {X : M N} (h : PFit V a b X) : proj V a * X * proj V b = X := by
  rw [h.1, h.2]

theorem run_append {N : ℕ} (V : Val N) (p q : List Stmt) : run V (p ++ q) = run (run V p) q := List.foldl_append ..

theorem run_cons {N : ℕ} (V : Val N) (s : Stmt) (q : List Stmt) : run V (s :: q) = run (exec V s) q := rfl

theorem run_nil {N : ℕ} (V : Val N) : run V [] = V := rfl

/-! ### Committing to new symbols -/

/-- What a committed matrix means. -/
noncomputable def newF {m n : ℕ} (k : Kind) (X : OMat m n) : ∀ N : ℕ, Val N → BM N m n := fun _ V r c =>
  match X r c with
  | none => 0
  | some e => den V (newBlk k r c e)

theorem den_newM {m n : ℕ} {k : Kind} {X : OMat m n} {dr : Fin m → Dim} {dc : Fin n → Dim}
    {F : ∀ N : ℕ, Val N → BM N m n} (hX : Den X dr dc F) (hne : ∀ r c, (dr r, dc c) ≠ one1) :
    Den (newM k X) dr dc (newF k X) := by
  intro r c e h
  unfold newM at h
  simp only [Option.bind_eq_bind, Option.bind_eq_some_iff, Option.some.injEq] at h
  obtain ⟨a, h1, rfl⟩ := h
  obtain ⟨a1, a2, a3⟩ := hX r c a h1
  refine ⟨?_, ?_, fun N V => ?_⟩
  · unfold newBlk
    split_ifs with h2 h3
    · exact good_c0 _ _
    · obtain ⟨i1, -, -⟩ := den_of_isIdent a1 h3
      rw [i1]
      exact good_cI _
    · refine (den_symb k r c ?_).1
      have := hne r c
      rw [← a2] at this
      exact this
  · unfold newBlk
    split_ifs <;> exact a2
  · unfold newF
    rw [h1]

/-- The value stored under a symbol. -/
theorem den_symb_of {N : ℕ} {V W : Val N} {k : Kind} {r c : ℕ} {a b : Dim} {X : M N} (hne : (a, b) ≠ one1)
    (hp : ∀ d, proj W d = proj V d) (hX : PFit V a b X) (hW : W.mat (sy k r c) a b = X) :
    den W (symb k r c a b) = X := by
  rw [(den_symb k r c hne).2.2, blockOf, hW, hp, hp, proj_fit hX]

theorem commit1_ok {q f : ℕ} {k : Kind} {r c : ℕ} {e : Blk} (hg : good e) (hne : e.shape ≠ one1) {p : List Stmt}
    (h : commit1 (guarded q) f k r c e = some p) :
    commit1 (code q) f k r c e = some p ∧ ∀ (N : ℕ) (V : Val N), Off k V (run V p) ∧
      (∀ r' c', (r', c') ≠ (r, c) → (run V p).mat (sy k r' c') = V.mat (sy k r' c')) ∧
      ∀ W : Val N, Off k V W → W.mat (sy k r c) = (run V p).mat (sy k r c) → den W (newBlk k r c e) = den V e := by
  have hpl : ∀ (N : ℕ) (V : Val N), PFit V e.rows e.cols (den V e) := fun N V => den_plain hg (not_scalar.2 hne)
  unfold commit1 at h ⊢
  by_cases hz : (e.isZero || e.isIdent) = true
  · rw [if_pos hz] at h ⊢
    obtain rfl := Option.some.inj h
    refine ⟨rfl, fun N V => ⟨Off.refl k V, fun _ _ _ => rfl, fun W hW _ => ?_⟩⟩
    unfold newBlk
    by_cases h0 : e.isZero = true
    · rw [if_pos h0, den_c0, den_of_isZero h0]
    · have hi : e.isIdent = true := by
        rcases Bool.or_eq_true_iff.1 hz with h | h
        · exact absurd h h0
        · exact h
      rw [if_neg h0, if_pos hi]
      obtain ⟨i1, -, i3⟩ := den_of_isIdent hg hi
      have hsc := not_scalar.2 hne
      rw [i3 hsc, den, denName, if_neg (show (e.rows, e.cols) ≠ one1 from hne), show sgn false = 1 from rfl, one_smul,
        hW.proj]
  · rw [if_neg hz] at h ⊢
    simp only [Option.bind_eq_bind, Option.bind_eq_some_iff, Option.some.injEq] at h ⊢
    obtain ⟨e', h1, rfl⟩ := h
    obtain ⟨r1, r2, r3, r4⟩ := C53_reduce_partial hg h1
    refine ⟨⟨e', r1, rfl⟩, fun N V => ?_⟩
    have h0 : ¬ e.isZero = true := fun h => hz (by rw [h]; rfl)
    have hi : ¬ e.isIdent = true := fun h => hz (by rw [h, Bool.or_true])
    rw [run_cons, run_nil, exec]
    by_cases hs : V.size e.rows = 0 ∨ V.size e.cols = 0
    · rw [if_pos hs]
      refine ⟨Off.refl k V, fun _ _ _ => rfl, fun W hW _ => ?_⟩
      rw [pfit_empty (hpl N V) hs]
      unfold newBlk
      rw [if_neg h0, if_neg hi, (den_symb k r c (show (e.rows, e.cols) ≠ one1 from hne)).2.2]
      refine pfit_empty (blockOf_fit W k r c _ _) ?_
      rw [← hW.size, ← hW.size]
      exact hs
    · rw [if_neg hs]
      refine ⟨put_off V k r c _, fun r' c' hrc => put_other V _ fun h => hrc ?_, fun W hW hv => ?_⟩
      · obtain ⟨-, rfl, rfl⟩ := sy_inj.1 h
        rfl
      · unfold newBlk
        rw [if_neg h0, if_neg hi]
        refine den_symb_of (V := V) hne (fun d => (hW.proj d).symm) (hpl N V) ?_
        rw [hv, put_same, r4]

theorem commitNew_ok {m n q f : ℕ} {k : Kind} {X : OMat m n} {dr : Fin m → Dim} {dc : Fin n → Dim}
    {F : ∀ N : ℕ, Val N → BM N m n} (hX : Den X dr dc F) (hne : ∀ r c, (dr r, dc c) ≠ one1)
    (hF : ∀ (N : ℕ) (V W : Val N), Off k V W → F N V = F N W) :
    ∀ (l : List (Fin m × Fin n)), l.Nodup → ∀ p, commitNew (guarded q) f k X l = some p →
      commitNew (code q) f k X l = some p ∧ ∀ (N : ℕ) (V : Val N), Off k V (run V p) ∧
        (∀ r c, (r, c) ∉ l → (run V p).mat (sy k r.val c.val) = V.mat (sy k r.val c.val)) ∧
        ∀ rc ∈ l, newF k X N (run V p) rc.1 rc.2 = F N V rc.1 rc.2 := by
  intro l
  induction l with
  | nil =>
    intro _ p h
    obtain rfl := Option.some.inj h
    exact ⟨rfl, fun N V => ⟨Off.refl k V, fun _ _ _ => rfl, fun _ h => absurd h (by simp)⟩⟩
  | cons x l ih =>
    obtain ⟨r, c⟩ := x
    intro hn p h
    rw [List.nodup_cons] at hn
    rw [commitNew] at h
    simp only [Option.bind_eq_bind, Option.bind_eq_some_iff, Option.some.injEq] at h
    obtain ⟨e, h1, s, h2, t, h3, rfl⟩ := h
    obtain ⟨e1, e2, e3⟩ := hX r c e h1
    obtain ⟨s1, s2⟩ := commit1_ok e1 (by rw [e2]; exact hne r c) h2
    obtain ⟨t1, t2⟩ := ih hn.2 t h3
    refine ⟨?_, fun N V => ?_⟩
    · rw [commitNew]
      simp only [Option.bind_eq_bind, Option.bind_eq_some_iff, Option.some.injEq]
      exact ⟨e, h1, s, s1, t, t1, rfl⟩
    · obtain ⟨a1, a2, a3⟩ := s2 N V
      obtain ⟨b1, b2, b3⟩ := t2 N (run V s)
      rw [run_append]
      refine ⟨a1.trans b1, fun r' c' h' => ?_, fun rc h' => ?_⟩
      · rw [List.mem_cons, not_or] at h'
        rw [b2 r' c' h'.2, a2]
        intro he
        rw [Prod.mk.injEq] at he
        refine h'.1 ?_
        rw [Fin.ext he.1, Fin.ext he.2]
      · rcases List.mem_cons.1 h' with rfl | h'
        · show newF k X N (run (run V s) t) r c = F N V r c
          unfold newF
          rw [h1]
          show den _ (newBlk k r c e) = _
          rw [a3 (run (run V s) t) (a1.trans b1) (b2 r c hn.1), e3]
        · rw [b3 rc h', hF N V (run V s) a1]

/-! ### Assigning to given symbols -/

theorem commitTo_ok {m n q f : ℕ} {k : Kind} {T X : OMat m n} {dr : Fin m → Dim} {dc : Fin n → Dim}
    {F : ∀ N : ℕ, Val N → BM N m n} (hT : ∀ r c, T r c = some (symb k r c (dr r) (dc c))) (hX : Den X dr dc F)
    (hne : ∀ r c, (dr r, dc c) ≠ one1) (hF : ∀ (N : ℕ) (V W : Val N), Off k V W → F N V = F N W) :
    ∀ (l : List (Fin m × Fin n)), l.Nodup → ∀ p, commitTo (guarded q) f T X l = some p →
      commitTo (code q) f T X l = some p ∧ ∀ (N : ℕ) (V : Val N), Off k V (run V p) ∧
        (∀ r c, (r, c) ∉ l → (run V p).mat (sy k r.val c.val) = V.mat (sy k r.val c.val)) ∧
        ∀ rc ∈ l, blockOf (run V p) k rc.1 rc.2 (dr rc.1) (dc rc.2) = F N V rc.1 rc.2 := by
  intro l
  induction l with
  | nil =>
    intro _ p h
    obtain rfl := Option.some.inj h
    exact ⟨rfl, fun N V => ⟨Off.refl k V, fun _ _ _ => rfl, fun _ h => absurd h (by simp)⟩⟩
  | cons x l ih =>
    obtain ⟨r, c⟩ := x
    intro hn p h
    rw [List.nodup_cons] at hn
    rw [commitTo] at h
    simp only [Option.bind_eq_bind, Option.bind_eq_some_iff, hT, Option.some.injEq] at h
    obtain ⟨_, rfl, ⟨k', a, b⟩, h0, e, h1, h2⟩ := h
    obtain ⟨rfl, rfl, rfl⟩ : sy k r c = k' ∧ dr r = a ∧ dc c = b := by
      have h0' := Option.some.inj h0
      rw [Prod.mk.injEq, Prod.mk.injEq] at h0'
      exact h0'
    obtain ⟨e1, e2, e3⟩ := hX r c e h1
    split_ifs at h2 with hz
    simp only [Option.bind_eq_some_iff, Option.some.injEq] at h2
    obtain ⟨e', h3, t, h4, rfl⟩ := h2
    obtain ⟨r1, r2, r3, r4⟩ := C53_reduce_partial e1 h3
    obtain ⟨t1, t2⟩ := ih hn.2 t h4
    refine ⟨?_, fun N V => ?_⟩
    · rw [commitTo]
      simp only [Option.bind_eq_bind, Option.bind_eq_some_iff, hT, Option.some.injEq]
      refine ⟨_, rfl, _, h0, e, h1, ?_⟩
      rw [if_neg hz]
      simp only [Option.bind_eq_some_iff, Option.some.injEq]
      exact ⟨e', r1, t, t1, rfl⟩
    · have hpl : PFit V (dr r) (dc c) (F N V r c) := by
        have := den_plain (V := V) e1 (not_scalar.2 (by rw [e2]; exact hne r c))
        unfold Blk.rows Blk.cols at this
        rw [e2, e3] at this
        exact this
      have hex : Off k V (exec V (.set (sy k r c) (dr r) (dc c) e')) ∧
          (∀ r' c', (r', c') ≠ (r.val, c.val) → (exec V (.set (sy k r c) (dr r) (dc c) e')).mat (sy k r' c') =
            V.mat (sy k r' c')) ∧ blockOf (exec V (.set (sy k r c) (dr r) (dc c) e')) k r c (dr r) (dc c) = F N V r c := by
        rw [exec]
        by_cases hs : V.size (dr r) = 0 ∨ V.size (dc c) = 0
        · rw [if_pos hs]
          exact ⟨Off.refl k V, fun _ _ _ => rfl, by rw [pfit_empty hpl hs, pfit_empty (blockOf_fit V k r c _ _) hs]⟩
        · rw [if_neg hs]
          refine ⟨put_off V k r c _, fun r' c' hrc => put_other V _ fun h => hrc ?_, ?_⟩
          · obtain ⟨-, rfl, rfl⟩ := sy_inj.1 h
            rfl
          · rw [blockOf, put_same, put_proj, put_proj, r4, e3, proj_fit hpl]
      obtain ⟨a1, a2, a3⟩ := hex
      rw [run_cons]
      generalize exec V (.set (sy k r c) (dr r) (dc c) e') = V₁ at a1 a2 a3 ⊢
      obtain ⟨b1, b2, b3⟩ := t2 N V₁
      refine ⟨a1.trans b1, fun r' c' h' => ?_, fun rc h' => ?_⟩
      · rw [List.mem_cons, not_or] at h'
        rw [b2 r' c' h'.2, a2]
        intro he
        rw [Prod.mk.injEq] at he
        refine h'.1 ?_
        rw [Fin.ext he.1, Fin.ext he.2]
      · rcases List.mem_cons.1 h' with rfl | h'
        · rw [← a3]
          show blockOf _ k r c _ _ = _
          unfold blockOf
          rw [b2 r c hn.1, ← b1.proj, ← b1.proj]
        · rw [b3 rc h', hF N V V₁ a1]

theorem adjust_ok {m n q f : ℕ} {k : Kind} {minus : Bool} {T X : OMat m n} {dr : Fin m → Dim} {dc : Fin n → Dim}
    {F : ∀ N : ℕ, Val N → BM N m n}
    (hT : ∀ r c t, T r c = some t → (target t).isSome = true → t = symb k r c (dr r) (dc c)) (hX : Den X dr dc F)
    (hne : ∀ r c, (dr r, dc c) ≠ one1) (hF : ∀ (N : ℕ) (V W : Val N), Off k V W → F N V = F N W) :
    ∀ (l : List (Fin m × Fin n)), l.Nodup → ∀ p, adjust (guarded q) f minus T X l = some p →
      adjust (code q) f minus T X l = some p ∧ ∀ (N : ℕ) (V : Val N), Off k V (run V p) ∧
        (∀ r c, (r, c) ∉ l → (run V p).mat (sy k r.val c.val) = V.mat (sy k r.val c.val)) ∧
        ∀ rc ∈ l, blockOf (run V p) k rc.1 rc.2 (dr rc.1) (dc rc.2) =
          if minus then blockOf V k rc.1 rc.2 (dr rc.1) (dc rc.2) - F N V rc.1 rc.2
          else blockOf V k rc.1 rc.2 (dr rc.1) (dc rc.2) + F N V rc.1 rc.2 := by
  intro l
  induction l with
  | nil =>
    intro _ p h
    obtain rfl := Option.some.inj h
    exact ⟨rfl, fun N V => ⟨Off.refl k V, fun _ _ _ => rfl, fun _ h => absurd h (by simp)⟩⟩
  | cons x l ih =>
    obtain ⟨r, c⟩ := x
    intro hn p h
    rw [List.nodup_cons] at hn
    rw [adjust] at h
    simp only [Option.bind_eq_bind, Option.bind_eq_some_iff] at h
    obtain ⟨e, h1, t, h4, h2⟩ := h
    obtain ⟨e1, e2, e3⟩ := hX r c e h1
    obtain ⟨t1, t2⟩ := ih hn.2 t h4
    -- one step: the head statements `s`
    have key : ∃ s, p = s ++ t ∧ adjust (code q) f minus T X ((r, c) :: l) = some p ∧ ∀ (N : ℕ) (V : Val N),
        Off k V (run V s) ∧
        (∀ r' c', (r', c') ≠ (r.val, c.val) → (run V s).mat (sy k r' c') = V.mat (sy k r' c')) ∧
        blockOf (run V s) k r c (dr r) (dc c) =
          if minus then blockOf V k r c (dr r) (dc c) - F N V r c else blockOf V k r c (dr r) (dc c) + F N V r c := by
      by_cases hz : e.isZero = true
      · rw [if_pos hz, Option.some.injEq] at h2
        refine ⟨[], h2.symm, ?_, fun N V => ⟨Off.refl k V, fun _ _ _ => rfl, ?_⟩⟩
        · rw [adjust]
          simp only [Option.bind_eq_bind, Option.bind_eq_some_iff]
          exact ⟨e, h1, t, t1, by rw [if_pos hz, h2]⟩
        · rw [run_nil, ← e3, den_of_isZero hz]
          split_ifs
          · rw [sub_zero]
          · rw [add_zero]
      · rw [if_neg hz] at h2
        simp only [Option.bind_eq_some_iff, Option.some.injEq] at h2
        obtain ⟨b, h5, ⟨k', a, d⟩, h0, e', h3, rfl⟩ := h2
        have hb := hT r c b h5 (by rw [h0]; rfl)
        subst hb
        obtain ⟨rfl, rfl, rfl⟩ : sy k r c = k' ∧ dr r = a ∧ dc c = d := by
          have h0' := Option.some.inj h0
          rw [Prod.mk.injEq, Prod.mk.injEq] at h0'
          exact h0'
        obtain ⟨r1, r2, r3, r4⟩ := C53_reduce_partial e1 h3
        refine ⟨[.upd minus (sy k r c) (dr r) (dc c) e'], rfl, ?_, fun N V => ?_⟩
        · rw [adjust]
          simp only [Option.bind_eq_bind, Option.bind_eq_some_iff]
          refine ⟨e, h1, t, t1, ?_⟩
          rw [if_neg hz]
          simp only [Option.bind_eq_some_iff, Option.some.injEq]
          exact ⟨_, h5, _, h0, e', r1, rfl⟩
        · have hpl : PFit V (dr r) (dc c) (F N V r c) := by
            have := den_plain (V := V) e1 (not_scalar.2 (by rw [e2]; exact hne r c))
            unfold Blk.rows Blk.cols at this
            rw [e2, e3] at this
            exact this
          rw [run_cons, run_nil, exec]
          by_cases hs : V.size (dr r) = 0 ∨ V.size (dc c) = 0
          · rw [if_pos hs]
            refine ⟨Off.refl k V, fun _ _ _ => rfl, ?_⟩
            rw [pfit_empty hpl hs, sub_zero, add_zero, ite_self]
          · rw [if_neg hs]
            refine ⟨put_off V k r c _, fun r' c' hrc => put_other V _ fun h => hrc ?_, ?_⟩
            · obtain ⟨-, rfl, rfl⟩ := sy_inj.1 h
              rfl
            · rw [blockOf, put_same, put_proj, put_proj, r4, e3]
              split_ifs
              · rw [mul_sub, sub_mul, proj_fit hpl]
                rfl
              · rw [mul_add, add_mul, proj_fit hpl]
                rfl
    obtain ⟨s, rfl, k1, k2⟩ := key
    refine ⟨k1, fun N V => ?_⟩
    obtain ⟨a1, a2, a3⟩ := k2 N V
    rw [run_append]
    generalize run V s = V₁ at a1 a2 a3 ⊢
    obtain ⟨b1, b2, b3⟩ := t2 N V₁
    refine ⟨a1.trans b1, fun r' c' h' => ?_, fun rc h' => ?_⟩
    · rw [List.mem_cons, not_or] at h'
      rw [b2 r' c' h'.2, a2]
      intro he
      rw [Prod.mk.injEq] at he
      refine h'.1 ?_
      rw [Fin.ext he.1, Fin.ext he.2]
    · rcases List.mem_cons.1 h' with rfl | h'
      · rw [← a3]
        show blockOf _ k r c _ _ = _
        unfold blockOf
        rw [b2 r c hn.1, ← b1.proj, ← b1.proj]
      · have hm : blockOf V₁ k rc.1 rc.2 (dr rc.1) (dc rc.2) = blockOf V k rc.1 rc.2 (dr rc.1) (dc rc.2) := by
          unfold blockOf
          rw [a2, a1.proj, a1.proj]
          intro he
          rw [Prod.mk.injEq] at he
          refine hn.1 ?_
          have : rc = (r, c) := Prod.ext (Fin.ext he.1) (Fin.ext he.2)
          rw [← this]
          exact h'
        rw [b3 rc h', hm, hF N V V₁ a1]

theorem places_nodup (m n : ℕ) : (places m n).Nodup := (List.nodup_finRange m).product (List.nodup_finRange n)
theorem upper_nodup (m n : ℕ) : (upper m n).Nodup := (places_nodup m n).filter _
theorem mem_places {m n : ℕ} (r : Fin m) (c : Fin n) : (r, c) ∈ places m n :=
  List.mem_product.2 ⟨List.mem_finRange r, List.mem_finRange c⟩
theorem mem_upper {m n : ℕ} {r : Fin m} {c : Fin n} (h : r.val ≤ c.val) : (r, c) ∈ upper m n :=
  List.mem_filter.2 ⟨mem_places r c, decide_eq_true h⟩

end Verif.Props.EkfGen
