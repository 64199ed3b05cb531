import Verif.Props.Symb
import Mathlib.Data.List.Forall2

/-!
C53: the factoring steps of the filter generator.
-/

namespace Verif.Props.Symb

open Verif.Model.Symb Verif.Model.Symb.Blk Verif.Spec.Symb Verif.Lemmas.Symb

variable {N : ℕ} {V : Val N}

/-- Two blocks of the same size with the same meaning. -/
def Same (a b : Blk) : Prop := a.shape = b.shape ∧ ∀ (N : ℕ) (V : Val N), den V a = den V b

/-- A step that keeps the size and the meaning. -/
def Keeps (f : Blk → Option Blk) : Prop := ∀ e e', good e → f e = some e' → good e' ∧ Same e' e

/-- A comparison that finds only blocks with the same meaning equal. -/
def EqOk (eq : Blk → Blk → Option Bool) : Prop := ∀ a b, good a → good b → eq a b = some true → Same a b

/-- Functions for the factoring steps that keep the meaning. -/
structure Sound (R : Rules) : Prop where
  eq : EqOk R.eq
  first : ∀ a l f₀ f g, good a → a.iter = some l → (nonScalar l).head? = some f₀ → R.stripFirst a = some (f, g) →
    good f ∧ good g ∧ f.isScalar = false ∧ Same f f₀ ∧ f.cols = g.rows ∧ a.shape = (f.rows, g.cols) ∧
      ∀ (N : ℕ) (V : Val N), den V a = norm a.shape (den V f * den V g)
  last : ∀ a l f₀ f g, good a → a.iter = some l → (nonScalar l).getLast? = some f₀ → R.stripLast a = some (g, f) →
    good f ∧ good g ∧ f.isScalar = false ∧ Same f f₀ ∧ g.cols = f.rows ∧ a.shape = (g.rows, f.cols) ∧
      ∀ (N : ℕ) (V : Val N), den V a = norm a.shape (den V g * den V f)

theorem Same.refl (a : Blk) : Same a a := ⟨rfl, fun _ _ => rfl⟩
theorem Same.symm {a b : Blk} (h : Same a b) : Same b a := ⟨h.1.symm, fun N V => (h.2 N V).symm⟩
theorem Same.trans {a b c : Blk} (h : Same a b) (h' : Same b c) : Same a c :=
  ⟨h.1.trans h'.1, fun N V => (h.2 N V).trans (h'.2 N V)⟩

/-- The terms of a sum. -/
def Terms (s : Dim × Dim) (ts : List Blk) : Prop := goods ts ∧ ts ≠ [] ∧ ∀ t ∈ ts, t.shape = s

theorem terms_add {s : Dim × Dim} {ts : List Blk} : Terms s ts ↔ good (.add false s.1 s.2 ts) := by
  rw [good]
  exact ⟨fun h => ⟨rfl, h⟩, fun h => h.2⟩

theorem den_add (r c : Dim) (ts : List Blk) : den V (.add false r c ts) = tot V ts := by
  rw [den, show sgn false = 1 from rfl, sums_one]

theorem tot_set {ts : List Blk} {i : ℕ} {t m : Blk} (h : ts[i]? = some t) :
    tot V (ts.set i m) = tot V ts - den V t + den V m := by
  induction ts generalizing i with
  | nil => simp at h
  | cons u us ih =>
    cases i with
    | zero =>
      obtain rfl : u = t := by simpa using h
      rw [List.set_cons_zero, tot, tot]
      abel
    | succ i =>
      rw [List.set_cons_succ, tot, tot, ih (by simpa using h)]
      abel

theorem tot_erase {ts : List Blk} {i : ℕ} {t : Blk} (h : ts[i]? = some t) :
    tot V (ts.eraseIdx i) = tot V ts - den V t := by
  induction ts generalizing i with
  | nil => simp at h
  | cons u us ih =>
    cases i with
    | zero =>
      obtain rfl : u = t := by simpa using h
      rw [List.eraseIdx_zero, List.tail_cons, tot]
      abel
    | succ i =>
      rw [List.eraseIdx_cons_succ, tot, tot, ih (by simpa using h)]
      abel

/-! ### Equal terms -/

theorem gather_ok {eq : Blk → Blk → Option Bool} (he : EqOk eq) {t : Blk} (ht : good t) :
    ∀ {us l : List Blk} {k : ℕ}, goods us → gather eq t us = some (k, l) →
      (∀ u ∈ l, u ∈ us) ∧ ∀ (N : ℕ) (V : Val N), tot V us = (k : ℝ) • den V t + tot V l := by
  intro us
  induction us with
  | nil =>
    intro l k _ h
    rw [gather, Option.some.injEq, Prod.mk.injEq] at h
    obtain ⟨rfl, rfl⟩ := h
    exact ⟨fun u hu => hu, fun N V => by simp [tot]⟩
  | cons u us ih =>
    intro l k hg h
    rw [goods] at hg
    rw [gather] at h
    simp only [Option.bind_eq_bind, Option.bind_eq_some_iff] at h
    obtain ⟨e, h1, ⟨k', l'⟩, h2, h3⟩ := h
    obtain ⟨i1, i2⟩ := ih hg.2 h2
    cases e with
    | true =>
      simp only [if_true, Option.some.injEq, Prod.mk.injEq] at h3
      obtain ⟨rfl, rfl⟩ := h3
      refine ⟨fun v hv => List.mem_cons_of_mem _ (i1 v hv), fun N V => ?_⟩
      rw [tot, i2, ← (he t u ht hg.1 h1).2]
      push_cast
      rw [add_smul, one_smul]
      abel
    | false =>
      simp only [Bool.false_eq_true, if_false, Option.some.injEq, Prod.mk.injEq] at h3
      obtain ⟨rfl, rfl⟩ := h3
      refine ⟨fun v hv => ?_, fun N V => ?_⟩
      · rcases List.mem_cons.1 hv with rfl | hv
        · exact List.mem_cons_self ..
        · exact List.mem_cons_of_mem _ (i1 v hv)
      · rw [tot, tot, i2]
        abel

theorem good_num (n : ℕ) : good (.const false (.num n) (.num 1) (.num 1)) := by
  rw [good]
  exact ⟨by simp, by simp, fun _ => rfl⟩

theorem den_num (n : ℕ) : den V (.const false (.num n) (.num 1) (.num 1)) = (n : ℝ) • 1 := by
  rw [den, denName, show sgn false = 1 from rfl, one_smul]

theorem factorAt_ok {eq : Blk → Blk → Option Bool} (he : EqOk eq) {s : Dim × Dim} {i : ℕ} {ts us : List Blk}
    (ht : Terms s ts) (h : factorAt eq i ts = some us) :
    Terms s us ∧ ∀ (N : ℕ) (V : Val N), tot V us = tot V ts := by
  unfold factorAt at h
  simp only [Option.bind_eq_bind, Option.bind_eq_some_iff] at h
  obtain ⟨t, h1, ⟨k, pre⟩, h2, ⟨m, post⟩, h3, h4⟩ := h
  dsimp only at h4
  split_ifs at h4 with hk
  · obtain rfl := Option.some.inj h4
    exact ⟨ht, fun _ _ => rfl⟩
  rw [Option.bind_eq_some_iff] at h4
  obtain ⟨x, hx, hu⟩ := h4
  obtain rfl := Option.some.inj hu
  obtain ⟨g1, g2, g3⟩ := ht
  rw [goods_iff] at g1
  have hmem : t ∈ ts := List.mem_of_getElem? h1
  have hgt := g1 t hmem
  have gpre : goods (ts.take i) := goods_iff.2 fun u hu => g1 u (List.mem_of_mem_take hu)
  have gpost : goods (ts.drop (i + 1)) := goods_iff.2 fun u hu => g1 u (List.mem_of_mem_drop hu)
  obtain ⟨p1, p2⟩ := gather_ok he hgt gpre h2
  obtain ⟨q1, q2⟩ := gather_ok he hgt gpost h3
  obtain ⟨x1, x2, x3⟩ := C53_mul_partial (good_num _) hgt (Or.inl rfl) hx
  rw [mulShape_scalar_left rfl, Option.some.injEq] at x2
  have hsplit : ts = ts.take i ++ t :: ts.drop (i + 1) := by
    have hi : i < ts.length := by
      by_contra hc
      rw [List.getElem?_eq_none (by omega)] at h1
      simp at h1
    have hti : ts[i] = t := by
      rw [List.getElem?_eq_getElem hi] at h1
      exact Option.some.inj h1
    rw [← hti, ← List.drop_eq_getElem_cons hi, List.take_append_drop]
  have hsub : ∀ u ∈ pre ++ x :: post, u = x ∨ u ∈ ts := by
    intro u hu
    rcases List.mem_append.1 hu with hu | hu
    · exact Or.inr (List.mem_of_mem_take (p1 u hu))
    · rcases List.mem_cons.1 hu with rfl | hu
      · exact Or.inl rfl
      · exact Or.inr (List.mem_of_mem_drop (q1 u hu))
  refine ⟨⟨goods_iff.2 fun u hu => ?_, by simp, fun u hu => ?_⟩, fun N V => ?_⟩
  · rcases hsub u hu with rfl | hu
    · exact x1
    · exact g1 u hu
  · rcases hsub u hu with rfl | hu
    · rw [← x2]
      exact g3 t hmem
    · exact g3 u hu
  · conv_rhs => rw [hsplit]
    have hxd : den V x = ((k + m + 1 : ℕ) : ℝ) • den V t := by
      rw [x3, den_num, smul_mul_assoc, one_mul, ← x2, norm_smul', norm_den hgt]
    rw [tot_append, tot, tot_append, tot, p2, q2, hxd]
    push_cast
    rw [add_smul, add_smul, one_smul]
    abel

theorem factorLoop_ok {eq : Blk → Blk → Option Bool} (he : EqOk eq) {s : Dim × Dim} :
    ∀ (n i : ℕ) (ts us : List Blk), Terms s ts → factorLoop eq n i ts = some us →
      Terms s us ∧ ∀ (N : ℕ) (V : Val N), tot V us = tot V ts := by
  intro n
  induction n with
  | zero =>
    intro i ts us _ h
    simp [factorLoop] at h
  | succ n ih =>
    intro i ts us ht h
    rw [factorLoop] at h
    split_ifs at h
    · simp only [Option.bind_eq_bind, Option.bind_eq_some_iff] at h
      obtain ⟨vs, h1, h2⟩ := h
      obtain ⟨a1, a2⟩ := factorAt_ok he ht h1
      obtain ⟨b1, b2⟩ := ih _ _ _ a1 h2
      exact ⟨b1, fun N V => (b2 N V).trans (a2 N V)⟩
    · obtain rfl := Option.some.inj h
      exact ⟨ht, fun _ _ => rfl⟩

/-! ### Merging two terms -/

theorem merge_terms {s : Dim × Dim} {ts : List Blk} {i j : ℕ} {ti tj m : Blk} (ht : Terms s ts) (hij : i < j)
    (hi : ts[i]? = some ti) (hj : ts[j]? = some tj) (hm : good m) (hs : m.shape = s)
    (hd : ∀ (N : ℕ) (V : Val N), den V m = den V ti + den V tj) :
    Terms s ((ts.set i m).eraseIdx j) ∧ (∀ (N : ℕ) (V : Val N), tot V ((ts.set i m).eraseIdx j) = tot V ts) ∧
      ((ts.set i m).eraseIdx j)[i]? = some m := by
  obtain ⟨g1, g2, g3⟩ := ht
  rw [goods_iff] at g1
  have hil : i < ts.length := by
    by_contra hc
    rw [List.getElem?_eq_none (by omega)] at hi
    simp at hi
  have hget : ((ts.set i m).eraseIdx j)[i]? = some m := by
    rw [List.getElem?_eraseIdx_of_lt hij, List.getElem?_set_self hil]
  have hsub : ∀ u ∈ (ts.set i m).eraseIdx j, u = m ∨ u ∈ ts := by
    intro u hu
    rcases List.mem_or_eq_of_mem_set (List.mem_of_mem_eraseIdx hu) with h | h
    · exact Or.inr h
    · exact Or.inl h
  refine ⟨⟨goods_iff.2 fun u hu => ?_, fun hn => ?_, fun u hu => ?_⟩, fun N V => ?_, hget⟩
  · rcases hsub u hu with rfl | hu
    · exact hm
    · exact g1 u hu
  · rw [hn] at hget
    simp at hget
  · rcases hsub u hu with rfl | hu
    · exact hs
    · exact g3 u hu
  · have hj' : (ts.set i m)[j]? = some tj := by
      rw [List.getElem?_set_ne (by omega), hj]
    rw [tot_erase hj', tot_set hi, hd]
    abel

theorem tot_of_one {ts : List Blk} {i : ℕ} {m : Blk} (h : ts[i]? = some m) (hl : ts.length = 1) : tot V ts = den V m := by
  obtain ⟨u, rfl⟩ := List.length_eq_one_iff.1 hl
  cases i with
  | zero =>
    obtain rfl : u = m := by simpa using h
    rw [tot, tot, add_zero]
  | succ i => simp at h

/-- What the loops make of a sum. -/
def StOk (s : Dim × Dim) (ts : List Blk) : St → Prop
  | .sum us => Terms s us ∧ ∀ (N : ℕ) (V : Val N), tot V us = tot V ts
  | .one b => good b ∧ b.shape = s ∧ ∀ (N : ℕ) (V : Val N), den V b = tot V ts

theorem StOk.trans {s : Dim × Dim} {ts us : List Blk} {st : St} (h : StOk s us st)
    (ht : ∀ (N : ℕ) (V : Val N), tot V us = tot V ts) : StOk s ts st := by
  cases st with
  | sum ws => exact ⟨h.1, fun N V => (h.2 N V).trans (ht N V)⟩
  | one b => exact ⟨h.1, h.2.1, fun N V => (h.2.2 N V).trans (ht N V)⟩

/-! ### Scalars -/

theorem anyM_true {f : Blk → Option Bool} {l : List Blk} (h : anyM f l = some true) : ∃ t ∈ l, f t = some true := by
  induction l with
  | nil => simp [anyM] at h
  | cons t l ih =>
    rw [anyM] at h
    simp only [Option.bind_eq_bind, Option.bind_eq_some_iff] at h
    obtain ⟨e, h1, h2⟩ := h
    cases e with
    | true => exact ⟨t, List.mem_cons_self .., h1⟩
    | false =>
      obtain ⟨u, hu, h3⟩ := ih (by simpa using h2)
      exact ⟨u, List.mem_cons_of_mem _ hu, h3⟩

theorem sameScalar_some {eq : Blk → Blk → Option Bool} {sc us : List Blk} {u : Blk}
    (h : sameScalar eq sc us = some (some u)) : u ∈ us ∧ ∃ t ∈ sc, eq t u = some true := by
  induction us with
  | nil => simp [sameScalar] at h
  | cons w us ih =>
    rw [sameScalar] at h
    simp only [Option.bind_eq_bind, Option.bind_eq_some_iff] at h
    obtain ⟨e, h1, h2⟩ := h
    cases e with
    | true =>
      obtain rfl : w = u := by simpa using h2
      exact ⟨List.mem_cons_self .., anyM_true h1⟩
    | false =>
      obtain ⟨h3, h4⟩ := ih (by simpa using h2)
      exact ⟨List.mem_cons_of_mem _ h3, h4⟩

theorem split_some {eq : Blk → Blk → Option Bool} {s : Blk} : ∀ {ts pre post : List Blk} {x : Blk},
    split eq s ts = some (pre, x, post) → ts = pre ++ x :: post ∧ eq x s = some true := by
  intro ts
  induction ts with
  | nil =>
    intro pre post x h
    simp [split] at h
  | cons t ts ih =>
    intro pre post x h
    rw [split] at h
    simp only [Option.bind_eq_bind, Option.bind_eq_some_iff] at h
    obtain ⟨e, h1, h2⟩ := h
    cases e with
    | true =>
      simp only [if_true, Option.some.injEq, Prod.mk.injEq] at h2
      obtain ⟨rfl, rfl, rfl⟩ := h2
      exact ⟨rfl, h1⟩
    | false =>
      simp only [Bool.false_eq_true, if_false, Option.bind_eq_some_iff] at h2
      obtain ⟨⟨p, y, q⟩, h3, h4⟩ := h2
      simp only [Option.some.injEq, Prod.mk.injEq] at h4
      obtain ⟨rfl, rfl, rfl⟩ := h4
      obtain ⟨rfl, h5⟩ := ih h3
      exact ⟨rfl, h5⟩

theorem Same.scalar {a b : Blk} (h : Same a b) (hb : b.isScalar = true) : a.isScalar = true :=
  isScalar_iff.2 (h.1.trans (isScalar_iff.1 hb))

/-- A scalar taken out of a product. -/
theorem remove_scalar {pre post : List Blk} {x : Blk} (hg : goods (pre ++ x :: post)) (hx : x.isScalar = true) :
    nonScalar (pre ++ x :: post) = nonScalar (pre ++ post) ∧
      (∀ d e, chain d (pre ++ x :: post) e → chain d (pre ++ post) e) ∧
        ∀ (N : ℕ) (V : Val N), prods V (pre ++ x :: post) = den V x * prods V (pre ++ post) := by
  refine ⟨?_, fun d e h => ?_, fun N V => ?_⟩
  · rw [nonScalar_append, nonScalar_append, nonScalar_cons_of_scalar hx]
  · rw [chain_append] at h ⊢
    obtain ⟨k, h1, h2⟩ := h
    rw [chain, if_pos hx] at h2
    exact ⟨k, h1, h2⟩
  · have hgx : good x := by
      rw [goods_append, goods] at hg
      exact hg.2.1
    obtain ⟨y, hy⟩ := den_scalar (V := V) hgx hx
    rw [prods_append, prods_append, prods, hy, smul_mul_assoc, smul_mul_assoc, one_mul, one_mul, mul_smul_comm]

theorem stripScalar_ok {eq : Blk → Blk → Option Bool} (he : EqOk eq) {s a x g : Blk} (hs : good s)
    (hss : s.isScalar = true) (ha : good a) (h : stripScalar eq s a = some (x, g)) :
    good x ∧ x.isScalar = true ∧ Same x s ∧ good g ∧ g.shape = a.shape ∧
      ∀ (N : ℕ) (V : Val N), den V a = den V x * den V g := by
  cases a with
  | mul neg cm r c ts =>
    rw [good] at ha
    obtain ⟨rfl, h1, h2, h3⟩ := ha
    rw [stripScalar] at h
    simp only [Option.bind_eq_bind, Option.bind_eq_some_iff] at h
    obtain ⟨⟨pre, y, post⟩, h4, h5⟩ := h
    obtain ⟨rfl, h6⟩ := split_some h4
    dsimp only at h5
    split_ifs at h5
    have hgy : good y := by
      rw [goods_append, goods] at h1
      exact h1.2.1
    have hsame := he y s hgy hs h6
    have hsy := hsame.scalar hss
    obtain ⟨r1, r2, r3⟩ := remove_scalar h1 hsy
    rw [r1] at h2
    have hgl : goods (pre ++ post) := by
      rw [goods_append, goods] at h1
      exact goods_append.2 ⟨h1.1, h1.2.2⟩
    have hcl := r2 _ _ h3
    have hden : ∀ (N : ℕ) (V : Val N), den V (.mul false cm r c (pre ++ y :: post)) =
        den V y * norm (r, c) (prods V (pre ++ post)) := by
      intro N V
      obtain ⟨z, hz⟩ := den_scalar (V := V) hgy hsy
      rw [den, show sgn false = 1 from rfl, one_smul, r3, hz, smul_mul_assoc, smul_mul_assoc, one_mul, one_mul,
        norm_smul']
    generalize hl : pre ++ post = l at h2 hgl hcl hden h5
    match l, hl with
    | [], _ => exact absurd rfl h2
    | [z], _ =>
      simp only [Option.some.injEq, Prod.mk.injEq] at h5
      obtain ⟨rfl, rfl⟩ := h5
      have hsz : z.isScalar = false := by
        cases hz : z.isScalar
        · rfl
        · rw [nonScalar_cons_of_scalar hz] at h2
          exact absurd rfl h2
      rw [chain, if_neg (by simp [hsz])] at hcl
      obtain ⟨c1, c2⟩ := hcl
      rw [chain] at c2
      have hsh : z.shape = (r, c) := Prod.ext c1 c2
      refine ⟨hgy, hsy, hsame, hgl.1, hsh, fun N V => ?_⟩
      rw [hden, prods_single, ← hsh, norm_den hgl.1]
    | z :: w :: l, _ =>
      simp only [Option.some.injEq, Prod.mk.injEq] at h5
      obtain ⟨rfl, rfl⟩ := h5
      refine ⟨hgy, hsy, hsame, ?_, rfl, fun N V => ?_⟩
      · rw [good]
        exact ⟨rfl, hgl, h2, hcl⟩
      · rw [hden, den, show sgn false = 1 from rfl, one_smul]
  | _ => simp [stripScalar] at h

theorem fsJ_ok {eq : Blk → Blk → Option Bool} (he : EqOk eq) {rec : Blk → Option Blk} (hr : Keeps rec)
    {s : Dim × Dim} (i : ℕ) :
    ∀ (n j : ℕ) (ti : Blk) (ts : List Blk) (md : Bool) (st : St) (md' : Bool), i < j → Terms s ts → ts[i]? = some ti →
      fsJ eq rec i n j ti ts md = some (st, md') → StOk s ts st := by
  intro n
  induction n with
  | zero =>
    intro j ti ts md st md' _ _ _ h
    simp [fsJ] at h
  | succ n ih =>
    intro j ti ts md st md' hij ht hi h
    rw [fsJ] at h
    split at h
    · simp only [Option.some.injEq, Prod.mk.injEq] at h
      obtain ⟨rfl, rfl⟩ := h
      exact ⟨ht, fun _ _ => rfl⟩
    · rename_i tj hj
      split at h
      · rename_i n1 q1 r1 c1 us n2 q2 r2 c2 ws
        simp only [Option.bind_eq_bind, Option.bind_eq_some_iff] at h
        obtain ⟨o, h1, h2⟩ := h
        have g1 := goods_iff.1 ht.1
        have hgi := g1 _ (List.mem_of_getElem? hi)
        have hgj := g1 _ (List.mem_of_getElem? hj)
        cases o with
        | none => exact ih _ _ _ _ _ _ (by omega) ht hi h2
        | some u =>
          simp only [Option.bind_eq_some_iff] at h2
          obtain ⟨⟨f, ri⟩, h3, ⟨fj, rj⟩, h4, a, h5, e, h6, m, h7, h8⟩ := h2
          obtain ⟨hu, t, htu, htu'⟩ := sameScalar_some h1
          have hgu : good u := by
            rw [good] at hgj
            exact goods_iff.1 hgj.2.1 u hu
          have htsc : t ∈ us ∧ t.isScalar = true := by
            simpa using List.mem_filter.1 htu
          have hgt : good t := by
            rw [good] at hgi
            exact goods_iff.1 hgi.2.1 t htsc.1
          have hus : u.isScalar = true := (he t u hgt hgu htu').symm.scalar htsc.2
          obtain ⟨s1, s2, s3, s4, s5, s6⟩ := stripScalar_ok he hgu hus hgi h3
          obtain ⟨k1, k2, k3, k4, k5, k6⟩ := stripScalar_ok he hgu hus hgj h4
          obtain ⟨a1, a2, a3, a4⟩ := mkAdd_good s4 k4 h5
          obtain ⟨e1, e2⟩ := hr a e a1 h6
          obtain ⟨m1, m2, m3⟩ := mkMul_good s1 e1 h7
          rw [mulShape_scalar_left s2, Option.some.injEq] at m2
          have hsi := ht.2.2 _ (List.mem_of_getElem? hi)
          have hsj := ht.2.2 _ (List.mem_of_getElem? hj)
          have hms : m.shape = s := by
            rw [← m2, e2.1, a2, s5, hsi]
          have hmd : ∀ (N : ℕ) (V : Val N), den V m = den V (.mul n1 q1 r1 c1 us) + den V (.mul n2 q2 r2 c2 ws) := by
            intro N V
            have d1 := norm_den (V := V) hgi
            have d2 := norm_den (V := V) hgj
            rw [hsi] at d1
            rw [hsj] at d2
            have d3 : den V (f, ri).1 * den V e = den V (.mul n1 q1 r1 c1 us) + den V (.mul n2 q2 r2 c2 ws) := by
              rw [e2.2, a4, mul_add, s6, k6, (s3.trans k3.symm).2]
            rw [m3, hms, d3, norm_add', d1, d2]
          obtain ⟨t1, t2, t3⟩ := merge_terms ht hij hi hj m1 hms hmd
          split_ifs at h8 with hl hmul
          · simp only [Option.some.injEq, Prod.mk.injEq] at h8
            obtain ⟨rfl, rfl⟩ := h8
            exact ⟨m1, hms, fun N V => by rw [← t2, tot_of_one t3 hl]⟩
          · exact (ih _ _ _ _ _ _ hij t1 t3 h8).trans t2
      · exact ih _ _ _ _ _ _ (by omega) ht hi h

theorem fsI_ok {eq : Blk → Blk → Option Bool} (he : EqOk eq) {rec : Blk → Option Blk} (hr : Keeps rec)
    {s : Dim × Dim} (m : ℕ) :
    ∀ (n i : ℕ) (ts : List Blk) (md : Bool) (st : St) (md' : Bool), Terms s ts →
      fsI eq rec m n i ts md = some (st, md') → StOk s ts st := by
  intro n
  induction n with
  | zero =>
    intro i ts md st md' _ h
    simp [fsI] at h
  | succ n ih =>
    intro i ts md st md' ht h
    rw [fsI] at h
    split at h
    · simp only [Option.some.injEq, Prod.mk.injEq] at h
      obtain ⟨rfl, rfl⟩ := h
      exact ⟨ht, fun _ _ => rfl⟩
    · rename_i ti hi
      simp only [Option.bind_eq_bind, Option.bind_eq_some_iff] at h
      obtain ⟨⟨st', md''⟩, h1, h2⟩ := h
      have hj := fsJ_ok he hr i _ _ _ _ _ _ _ (Nat.lt_succ_self i) ht hi h1
      cases st' with
      | one b =>
        simp only [Option.some.injEq, Prod.mk.injEq] at h2
        obtain ⟨rfl, rfl⟩ := h2
        exact hj
      | sum us => exact (ih _ _ _ _ _ hj.1 h2).trans hj.2

theorem factorScalars_ok {eq : Blk → Blk → Option Bool} (he : EqOk eq) : ∀ n : ℕ, Keeps (factorScalars eq n) := by
  intro n
  induction n with
  | zero =>
    intro e e' _ h
    simp [factorScalars] at h
  | succ n ih =>
    intro e e' hg h
    cases e with
    | add neg r c ts =>
      obtain rfl : neg = false := by
        rw [good] at hg
        exact hg.1
      have ht : Terms (r, c) ts := terms_add.2 hg
      rw [factorScalars] at h
      simp only [Option.bind_eq_bind, Option.bind_eq_some_iff] at h
      obtain ⟨⟨st, md⟩, h1, h2⟩ := h
      have hst := fsI_ok he ih _ _ _ _ _ _ _ ht h1
      cases st with
      | one b =>
        obtain rfl := Option.some.inj h2
        exact ⟨hst.1, hst.2.1, fun N V => by rw [hst.2.2, den_add]⟩
      | sum us =>
        have hgu : good (.add false r c us) := terms_add.1 hst.1
        have hsu : Same (.add false r c us) (.add false r c ts) :=
          ⟨rfl, fun N V => by rw [den_add, den_add, hst.2]⟩
        cases md with
        | true =>
          obtain ⟨k1, k2⟩ := ih _ _ hgu h2
          exact ⟨k1, k2.trans hsu⟩
        | false =>
          obtain rfl := Option.some.inj h2
          exact ⟨hgu, hsu⟩
    | _ =>
      simp only [factorScalars, Option.some.injEq] at h
      subst h
      exact ⟨hg, Same.refl _⟩

/-! ### First and last factors -/

theorem sameFirst_true {eq : Blk → Blk → Option Bool} {a b : Blk} (h : sameFirst eq a b = some true) :
    ∃ l m f g, a.iter = some l ∧ b.iter = some m ∧ (nonScalar l).head? = some f ∧ (nonScalar m).head? = some g ∧
      eq f g = some true := by
  unfold sameFirst at h
  simp only [Option.bind_eq_bind, Option.bind_eq_some_iff] at h
  obtain ⟨l, h1, m, h2, f, h3, g, h4, h5⟩ := h
  exact ⟨l, m, f, g, h1, h2, h3, h4, h5⟩

theorem sameLast_true {eq : Blk → Blk → Option Bool} {a b : Blk} (h : sameLast eq a b = some true) :
    ∃ l m f g, a.iter = some l ∧ b.iter = some m ∧ (nonScalar l).getLast? = some f ∧ (nonScalar m).getLast? = some g ∧
      eq f g = some true := by
  unfold sameLast at h
  simp only [Option.bind_eq_bind, Option.bind_eq_some_iff] at h
  obtain ⟨l, h1, m, h2, f, h3, g, h4, h5⟩ := h
  exact ⟨l, m, f, g, h1, h2, h3, h4, h5⟩

theorem iter_goods {a : Blk} {l : List Blk} (ha : good a) (h : a.iter = some l) : goods l := by
  cases a with
  | const neg nm r c =>
    obtain rfl := Option.some.inj h
    exact ⟨ha, trivial⟩
  | tr neg b => simp [iter] at h
  | mul neg cm r c ts =>
    obtain rfl := Option.some.inj h
    rw [good] at ha
    exact ha.2.1
  | add neg r c ts =>
    obtain rfl := Option.some.inj h
    rw [good] at ha
    exact ha.2.1

theorem mem_of_nonScalar_head {l : List Blk} {f : Blk} (h : (nonScalar l).head? = some f) : f ∈ l :=
  List.mem_of_mem_filter (List.mem_of_mem_head? h)

theorem mem_of_nonScalar_last {l : List Blk} {f : Blk} (h : (nonScalar l).getLast? = some f) : f ∈ l :=
  List.mem_of_mem_filter (List.mem_of_getLast? h)

/-- Two terms with the same first factor, merged. -/
theorem merge_first {R : Rules} (hR : Sound R) {rec : Blk → Option Blk} (hr : Keeps rec) {ti tj f ri fj rj a e m : Blk}
    {s : Dim × Dim} (hgi : good ti) (hgj : good tj) (hsi : ti.shape = s) (hsj : tj.shape = s)
    (hsame : sameFirst R.eq ti tj = some true) (h3 : R.stripFirst ti = some (f, ri)) (h4 : R.stripFirst tj = some (fj, rj))
    (h5 : mkAdd ri rj = some a) (h6 : rec a = some e) (h7 : mkMul f e = some m) :
    good m ∧ m.shape = s ∧ ∀ (N : ℕ) (V : Val N), den V m = den V ti + den V tj := by
  obtain ⟨l, l', f0, g0, i1, i2, i3, i4, i5⟩ := sameFirst_true hsame
  have hs0 : Same f0 g0 := hR.eq _ _ (goods_iff.1 (iter_goods hgi i1) _ (mem_of_nonScalar_head i3))
    (goods_iff.1 (iter_goods hgj i2) _ (mem_of_nonScalar_head i4)) i5
  obtain ⟨s1, s2, s3, s4, s5, s6, s7⟩ := hR.first _ _ _ _ _ hgi i1 i3 h3
  obtain ⟨k1, k2, k3, k4, k5, k6, k7⟩ := hR.first _ _ _ _ _ hgj i2 i4 h4
  obtain ⟨a1, a2, a3, a4⟩ := mkAdd_good s2 k2 h5
  obtain ⟨e1, e2⟩ := hr a e a1 h6
  obtain ⟨m1, m2, m3⟩ := mkMul_good s1 e1 h7
  have hes : e.shape = ri.shape := e2.1.trans a2
  have hms : m.shape = s := by
    rw [← hsi, s6]
    cases hse : e.isScalar
    · rw [mulShape, if_neg (by simp [s3]), if_neg (by simp [hse])] at m2
      split_ifs at m2
      rw [← Option.some.inj m2]
      unfold Blk.cols
      rw [hes]
    · rw [mulShape_scalar_right s3 hse, Option.some.injEq] at m2
      rw [← m2]
      have hri := hes.symm.trans (isScalar_iff.1 hse)
      refine Prod.ext rfl ?_
      show f.cols = ri.cols
      rw [s5]
      unfold Blk.rows Blk.cols
      rw [hri]
  refine ⟨m1, hms, fun N V => ?_⟩
  have hff : den V fj = den V f := ((k4.trans hs0.symm).trans s4.symm).2 N V
  rw [m3, hms, e2.2, a4, mul_add, norm_add', s7, k7, hsi, hsj, hff]

/-- Two terms with the same last factor, merged. -/
theorem merge_last {R : Rules} (hR : Sound R) {ti tj f ri fj rj a m : Blk}
    {s : Dim × Dim} (hgi : good ti) (hgj : good tj) (hsi : ti.shape = s) (hsj : tj.shape = s)
    (hsame : sameLast R.eq ti tj = some true) (h3 : R.stripLast ti = some (ri, f)) (h4 : R.stripLast tj = some (rj, fj))
    (h5 : mkAdd ri rj = some a) (h7 : mkMul a f = some m) :
    good m ∧ m.shape = s ∧ ∀ (N : ℕ) (V : Val N), den V m = den V ti + den V tj := by
  obtain ⟨l, l', f0, g0, i1, i2, i3, i4, i5⟩ := sameLast_true hsame
  have hs0 : Same f0 g0 := hR.eq _ _ (goods_iff.1 (iter_goods hgi i1) _ (mem_of_nonScalar_last i3))
    (goods_iff.1 (iter_goods hgj i2) _ (mem_of_nonScalar_last i4)) i5
  obtain ⟨s1, s2, s3, s4, s5, s6, s7⟩ := hR.last _ _ _ _ _ hgi i1 i3 h3
  obtain ⟨k1, k2, k3, k4, k5, k6, k7⟩ := hR.last _ _ _ _ _ hgj i2 i4 h4
  obtain ⟨a1, a2, a3, a4⟩ := mkAdd_good s2 k2 h5
  obtain ⟨m1, m2, m3⟩ := mkMul_good a1 s1 h7
  have hms : m.shape = s := by
    rw [← hsi, s6]
    cases hse : a.isScalar
    · rw [mulShape, if_neg (by simp [hse]), if_neg (by simp [s3])] at m2
      split_ifs at m2
      rw [← Option.some.inj m2]
      unfold Blk.rows
      rw [a2]
    · rw [mulShape_scalar_left hse, Option.some.injEq] at m2
      rw [← m2]
      have hri := a2.symm.trans (isScalar_iff.1 hse)
      refine Prod.ext ?_ rfl
      show f.rows = ri.rows
      rw [← s5]
      unfold Blk.rows Blk.cols
      rw [hri]
  refine ⟨m1, hms, fun N V => ?_⟩
  have hff : den V fj = den V f := ((k4.trans hs0.symm).trans s4.symm).2 N V
  rw [m3, hms, a4, add_mul, norm_add', s7, k7, hsi, hsj, hff]

theorem ffJ_ok {R : Rules} (hR : Sound R) {rec : Blk → Option Blk} (hr : Keeps rec) {s : Dim × Dim} (i : ℕ) :
    ∀ (n j : ℕ) (ti : Blk) (ts : List Blk) (st : St), i < j → Terms s ts → ts[i]? = some ti →
      ffJ R rec i n j ti ts = some st → StOk s ts st := by
  intro n
  induction n with
  | zero =>
    intro j ti ts st _ _ _ h
    simp [ffJ] at h
  | succ n ih =>
    intro j ti ts st hij ht hi h
    rw [ffJ] at h
    split at h
    · obtain rfl := Option.some.inj h
      exact ⟨ht, fun _ _ => rfl⟩
    · rename_i tj hj
      split at h
      · exact ih _ _ _ _ (by omega) ht hi h
      · simp only [Option.bind_eq_bind, Option.bind_eq_some_iff] at h
        obtain ⟨o, h1, h2⟩ := h
        cases o with
        | false =>
          simp only [Bool.false_eq_true, if_false] at h2
          exact ih _ _ _ _ (by omega) ht hi h2
        | true =>
          simp only [if_true, Option.bind_eq_some_iff] at h2
          obtain ⟨⟨f, ri⟩, h3, ⟨fj, rj⟩, h4, a, h5, e, h6, m, h7, h8⟩ := h2
          have mi := List.mem_of_getElem? hi
          have mj := List.mem_of_getElem? hj
          obtain ⟨m1, m2, m3⟩ := merge_first hR hr (goods_iff.1 ht.1 _ mi) (goods_iff.1 ht.1 _ mj) (ht.2.2 _ mi)
            (ht.2.2 _ mj) h1 h3 h4 h5 h6 h7
          obtain ⟨t1, t2, t3⟩ := merge_terms ht hij hi hj m1 m2 m3
          split_ifs at h8 with hl
          · obtain rfl := Option.some.inj h8
            exact ⟨m1, m2, fun N V => by rw [← t2, tot_of_one t3 hl]⟩
          · exact (ih _ _ _ _ hij t1 t3 h8).trans t2

theorem ffI_ok {R : Rules} (hR : Sound R) {rec : Blk → Option Blk} (hr : Keeps rec) {s : Dim × Dim} (m : ℕ) :
    ∀ (n i : ℕ) (ts : List Blk) (st : St), Terms s ts → ffI R rec m n i ts = some st → StOk s ts st := by
  intro n
  induction n with
  | zero =>
    intro i ts st _ h
    simp [ffI] at h
  | succ n ih =>
    intro i ts st ht h
    rw [ffI] at h
    split at h
    · obtain rfl := Option.some.inj h
      exact ⟨ht, fun _ _ => rfl⟩
    · rename_i ti hi
      simp only [Option.bind_eq_bind, Option.bind_eq_some_iff] at h
      obtain ⟨st', h1, h2⟩ := h
      have hj := ffJ_ok hR hr i _ _ _ _ _ (Nat.lt_succ_self i) ht hi h1
      cases st' with
      | one b =>
        obtain rfl := Option.some.inj h2
        exact hj
      | sum us => exact (ih _ _ _ hj.1 h2).trans hj.2

theorem factorFirst_ok {R : Rules} (hR : Sound R) : ∀ n : ℕ, Keeps (factorFirst R n) := by
  intro n
  induction n with
  | zero =>
    intro e e' _ h
    simp [factorFirst] at h
  | succ n ih =>
    intro e e' hg h
    cases e with
    | add neg r c ts =>
      obtain rfl : neg = false := by
        rw [good] at hg
        exact hg.1
      have ht : Terms (r, c) ts := terms_add.2 hg
      rw [factorFirst] at h
      simp only [Option.bind_eq_bind, Option.bind_eq_some_iff] at h
      obtain ⟨st, h1, h2⟩ := h
      have hst := ffI_ok hR ih _ _ _ _ _ ht h1
      cases st with
      | one b =>
        simp only [Option.bind_eq_some_iff] at h2
        obtain ⟨_, _, _, _, h2⟩ := h2
        obtain rfl := Option.some.inj h2
        exact ⟨hst.1, hst.2.1, fun N V => by rw [hst.2.2, den_add]⟩
      | sum us =>
        obtain rfl := Option.some.inj h2
        exact ⟨terms_add.1 hst.1, rfl, fun N V => by rw [den_add, den_add, hst.2]⟩
    | _ =>
      simp only [factorFirst, Option.bind_eq_bind, Option.bind_eq_some_iff] at h
      obtain ⟨_, _, h⟩ := h
      obtain rfl := Option.some.inj h
      exact ⟨hg, Same.refl _⟩

theorem flJ_ok {R : Rules} (hR : Sound R) {s : Dim × Dim} (i : ℕ) :
    ∀ (n j : ℕ) (ti : Blk) (ts : List Blk) (st : St), i < j → Terms s ts → ts[i]? = some ti →
      flJ R i n j ti ts = some st → StOk s ts st := by
  intro n
  induction n with
  | zero =>
    intro j ti ts st _ _ _ h
    simp [flJ] at h
  | succ n ih =>
    intro j ti ts st hij ht hi h
    rw [flJ] at h
    split at h
    · obtain rfl := Option.some.inj h
      exact ⟨ht, fun _ _ => rfl⟩
    · rename_i tj hj
      split at h
      · exact ih _ _ _ _ (by omega) ht hi h
      · simp only [Option.bind_eq_bind, Option.bind_eq_some_iff] at h
        obtain ⟨o, h1, h2⟩ := h
        cases o with
        | false =>
          simp only [Bool.false_eq_true, if_false] at h2
          exact ih _ _ _ _ (by omega) ht hi h2
        | true =>
          simp only [if_true, Option.bind_eq_some_iff] at h2
          obtain ⟨⟨ri, f⟩, h3, ⟨rj, fj⟩, h4, a, h5, m, h7, h8⟩ := h2
          have mi := List.mem_of_getElem? hi
          have mj := List.mem_of_getElem? hj
          obtain ⟨m1, m2, m3⟩ := merge_last hR (goods_iff.1 ht.1 _ mi) (goods_iff.1 ht.1 _ mj) (ht.2.2 _ mi)
            (ht.2.2 _ mj) h1 h3 h4 h5 h7
          obtain ⟨t1, t2, t3⟩ := merge_terms ht hij hi hj m1 m2 m3
          split_ifs at h8 with hl
          · obtain rfl := Option.some.inj h8
            exact ⟨m1, m2, fun N V => by rw [← t2, tot_of_one t3 hl]⟩
          · exact (ih _ _ _ _ hij t1 t3 h8).trans t2

theorem flI_ok {R : Rules} (hR : Sound R) {s : Dim × Dim} (m : ℕ) :
    ∀ (n i : ℕ) (ts : List Blk) (st : St), Terms s ts → flI R m n i ts = some st → StOk s ts st := by
  intro n
  induction n with
  | zero =>
    intro i ts st _ h
    simp [flI] at h
  | succ n ih =>
    intro i ts st ht h
    rw [flI] at h
    split at h
    · obtain rfl := Option.some.inj h
      exact ⟨ht, fun _ _ => rfl⟩
    · rename_i ti hi
      simp only [Option.bind_eq_bind, Option.bind_eq_some_iff] at h
      obtain ⟨st', h1, h2⟩ := h
      have hj := flJ_ok hR i _ _ _ _ _ (Nat.lt_succ_self i) ht hi h1
      cases st' with
      | one b =>
        obtain rfl := Option.some.inj h2
        exact hj
      | sum us => exact (ih _ _ _ hj.1 h2).trans hj.2

theorem factorLast_ok {R : Rules} (hR : Sound R) (n : ℕ) : Keeps (factorLast R n) := by
  intro e e' hg h
  cases e with
  | add neg r c ts =>
    obtain rfl : neg = false := by
      rw [good] at hg
      exact hg.1
    have ht : Terms (r, c) ts := terms_add.2 hg
    rw [factorLast] at h
    simp only [Option.bind_eq_bind, Option.bind_eq_some_iff] at h
    obtain ⟨st, h1, h2⟩ := h
    have hst := flI_ok hR _ _ _ _ _ ht h1
    cases st with
    | one b =>
      obtain rfl := Option.some.inj h2
      exact ⟨hst.1, hst.2.1, fun N V => by rw [hst.2.2, den_add]⟩
    | sum us =>
      obtain rfl := Option.some.inj h2
      exact ⟨terms_add.1 hst.1, rfl, fun N V => by rw [den_add, den_add, hst.2]⟩
  | _ =>
    simp only [factorLast, Option.bind_eq_bind, Option.bind_eq_some_iff] at h
    obtain ⟨_, _, h⟩ := h
    obtain rfl := Option.some.inj h
    exact ⟨hg, Same.refl _⟩

theorem combine_ok {R : Rules} (hR : Sound R) (n : ℕ) : Keeps (combine R n) := by
  intro e e' hg h
  unfold combine at h
  simp only [Option.bind_eq_bind, Option.bind_eq_some_iff] at h
  obtain ⟨a, h1, b, h2, h3⟩ := h
  obtain ⟨g1, s1⟩ := factorScalars_ok hR.eq n _ _ hg h1
  obtain ⟨g2, s2⟩ := factorFirst_ok hR n _ _ g1 h2
  obtain ⟨g3, s3⟩ := factorLast_ok hR n _ _ g2 h3
  exact ⟨g3, (s3.trans s2).trans s1⟩

/-! ### Recursion into the terms -/

/-- Terms replaced by terms with the same meaning. -/
def Repl : List Blk → List Blk → Prop := List.Forall₂ fun t u => good u ∧ Same u t

theorem repl_goods {ts us : List Blk} (h : Repl ts us) : goods us := by
  induction h with
  | nil => trivial
  | cons h _ ih => exact ⟨h.1, ih⟩

theorem repl_prods {ts us : List Blk} (h : Repl ts us) : prods V us = prods V ts := by
  induction h with
  | nil => rfl
  | cons h _ ih => rw [prods, prods, ih, h.2.2]

theorem repl_tot {ts us : List Blk} (h : Repl ts us) : tot V us = tot V ts := by
  induction h with
  | nil => rfl
  | cons h _ ih => rw [tot, tot, ih, h.2.2]

theorem Same.isScalar_eq {a b : Blk} (h : Same a b) : a.isScalar = b.isScalar := by
  unfold Blk.isScalar
  rw [h.1]

theorem repl_chain {ts us : List Blk} (h : Repl ts us) {d e : Dim} (hc : chain d ts e) : chain d us e := by
  induction h generalizing d with
  | nil => exact hc
  | cons h _ ih =>
    rw [chain] at hc ⊢
    rw [h.2.isScalar_eq]
    split_ifs at hc ⊢
    · exact ih hc
    · unfold Blk.rows Blk.cols
      rw [h.2.1]
      exact ⟨hc.1, ih hc.2⟩

theorem repl_nonScalar {ts us : List Blk} (h : Repl ts us) (hn : nonScalar ts ≠ []) : nonScalar us ≠ [] := by
  induction h with
  | nil => exact hn
  | @cons a b l m h _ ih =>
    cases hb : b.isScalar
    · rw [nonScalar_cons_of_not hb]
      simp
    · have ha : a.isScalar = true := by rw [← h.2.isScalar_eq, hb]
      rw [nonScalar_cons_of_scalar ha] at hn
      rw [nonScalar_cons_of_scalar hb]
      exact ih hn

theorem repl_shape {ts us : List Blk} {s : Dim × Dim} (h : Repl ts us) (hs : ∀ t ∈ ts, t.shape = s) :
    ∀ u ∈ us, u.shape = s := by
  induction h with
  | nil => simp
  | cons h _ ih =>
    intro u hu
    rcases List.mem_cons.1 hu with rfl | hu
    · rw [h.2.1]
      exact hs _ (List.mem_cons_self ..)
    · exact ih (fun t ht => hs t (List.mem_cons_of_mem _ ht)) u hu

theorem repl_mul {neg cm : Bool} {r c : Dim} {ts us : List Blk} (h : Repl ts us) (hg : good (.mul neg cm r c ts)) :
    good (.mul neg cm r c us) ∧ Same (.mul neg cm r c us) (.mul neg cm r c ts) := by
  rw [good] at hg
  obtain ⟨rfl, h1, h2, h3⟩ := hg
  refine ⟨?_, rfl, fun N V => ?_⟩
  · rw [good]
    exact ⟨rfl, repl_goods h, repl_nonScalar h h2, repl_chain h h3⟩
  · rw [den, den, repl_prods h]

theorem repl_add {neg : Bool} {r c : Dim} {ts us : List Blk} (h : Repl ts us) (hg : good (.add neg r c ts)) :
    good (.add neg r c us) ∧ Same (.add neg r c us) (.add neg r c ts) := by
  rw [good] at hg
  obtain ⟨rfl, h1, h2, h3⟩ := hg
  refine ⟨?_, rfl, fun N V => ?_⟩
  · rw [good]
    refine ⟨rfl, repl_goods h, fun hn => ?_, repl_shape h h3⟩
    subst hn
    cases h
    exact h2 rfl
  · rw [den_add, den_add, repl_tot h]

theorem mapM_ok {f : Blk → Option Blk} (hf : Keeps f) :
    ∀ {ts us : List Blk}, goods ts → mapM f ts = some us → Repl ts us := by
  intro ts
  induction ts with
  | nil =>
    intro us _ h
    obtain rfl := Option.some.inj h
    exact List.Forall₂.nil
  | cons t ts ih =>
    intro us hg h
    rw [goods] at hg
    rw [mapM] at h
    simp only [Option.bind_eq_bind, Option.bind_eq_some_iff] at h
    obtain ⟨t', h1, l, h2, h3⟩ := h
    obtain rfl := Option.some.inj h3
    exact List.Forall₂.cons (hf _ _ hg.1 h1) (ih hg.2 h2)

theorem reduceFactor_ok {rec : Blk → Option Blk} (hr : Keeps rec) : Keeps (reduceFactor rec) := by
  intro t t' hg h
  unfold reduceFactor at h
  split_ifs at h
  · exact hr _ _ hg h
  · obtain rfl := Option.some.inj h
    exact ⟨hg, Same.refl _⟩

theorem reduceTerm_ok {rec : Blk → Option Blk} (hr : Keeps rec) : Keeps (reduceTerm rec) := by
  intro t t' hg h
  cases t with
  | add neg r c ws => exact hr _ _ hg h
  | mul neg cm r c ws =>
    simp only [reduceTerm, Option.bind_eq_bind, Option.bind_eq_some_iff] at h
    obtain ⟨vs, h4, h5⟩ := h
    obtain rfl := Option.some.inj h5
    have hgw : goods ws := by
      have := hg
      rw [good] at this
      exact this.2.1
    exact repl_mul (mapM_ok (reduceFactor_ok hr) hgw h4) hg
  | _ =>
    obtain rfl := Option.some.inj h
    exact ⟨hg, Same.refl _⟩

/-- With functions that keep the meaning, the factoring steps keep the meaning. -/
theorem reduce_ok {R : Rules} (hR : Sound R) : ∀ n : ℕ, Keeps (reduce R n) := by
  intro n
  induction n with
  | zero =>
    intro e e' _ h
    simp [reduce] at h
  | succ n ih =>
    intro e e' hg h
    cases e with
    | add neg r c ts =>
      obtain rfl : neg = false := by
        rw [good] at hg
        exact hg.1
      have ht : Terms (r, c) ts := terms_add.2 hg
      rw [reduce] at h
      simp only [Option.bind_eq_bind, Option.bind_eq_some_iff] at h
      obtain ⟨us, h1, a, h2, h3⟩ := h
      obtain ⟨f1, f2⟩ := factorLoop_ok hR.eq _ _ _ _ ht h1
      obtain ⟨c1, c2⟩ := combine_ok hR n _ _ (terms_add.1 f1) h2
      have hs : Same (.add false r c us) (.add false r c ts) := ⟨rfl, fun N V => by rw [den_add, den_add, f2]⟩
      cases a with
      | add neg r' c' ws =>
        simp only [Option.bind_eq_some_iff] at h3
        obtain ⟨vs, h4, h5⟩ := h3
        obtain rfl := Option.some.inj h5
        have hgw : goods ws := by
          rw [good] at c1
          exact c1.2.1
        obtain ⟨r1, r2⟩ := repl_add (mapM_ok (reduceTerm_ok ih) hgw h4) c1
        exact ⟨r1, (r2.trans c2).trans hs⟩
      | mul neg cm r' c' ws =>
        simp only [Option.bind_eq_some_iff] at h3
        obtain ⟨vs, h4, h5⟩ := h3
        obtain rfl := Option.some.inj h5
        have hgw : goods ws := by
          rw [good] at c1
          exact c1.2.1
        obtain ⟨r1, r2⟩ := repl_mul (mapM_ok (reduceTerm_ok ih) hgw h4) c1
        exact ⟨r1, (r2.trans c2).trans hs⟩
      | _ =>
        obtain rfl := Option.some.inj h3
        exact ⟨c1, c2.trans hs⟩
    | _ =>
      simp only [reduce, Option.some.injEq] at h
      subst h
      exact ⟨hg, Same.refl _⟩

end Verif.Props.Symb
