import Verif.Props.SymbReduce

/-!
C53: when the factoring steps of the code keep the meaning.
-/

namespace Verif.Props.Symb

open Verif.Model.Symb Verif.Model.Symb.Blk Verif.Spec.Symb Verif.Lemmas.Symb

variable {N : ℕ} {V : Val N}

mutual
/-- Equality of blocks. -/
def beq : Blk → Blk → Bool
  | .const n m r c, .const n' m' r' c' => n = n' && m = m' && r = r' && c = c'
  | .tr n b, .tr n' b' => n = n' && beq b b'
  | .mul n m r c ts, .mul n' m' r' c' ts' => n = n' && m = m' && r = r' && c = c' && beqs ts ts'
  | .add n r c ts, .add n' r' c' ts' => n = n' && r = r' && c = c' && beqs ts ts'
  | _, _ => false
def beqs : List Blk → List Blk → Bool
  | [], [] => true
  | t :: ts, u :: us => beq t u && beqs ts us
  | _, _ => false
end

mutual
theorem beq_eq : ∀ {a b : Blk}, beq a b = true → a = b
  | .const n m r c, b, h => by
    cases b with
    | const n' m' r' c' =>
      simp only [beq, Bool.and_eq_true, decide_eq_true_eq] at h
      obtain ⟨⟨⟨rfl, rfl⟩, rfl⟩, rfl⟩ := h
      rfl
    | _ => simp [beq] at h
  | .tr n a, b, h => by
    cases b with
    | tr n' b' =>
      simp only [beq, Bool.and_eq_true, decide_eq_true_eq] at h
      rw [h.1, beq_eq h.2]
    | _ => simp [beq] at h
  | .mul n m r c ts, b, h => by
    cases b with
    | mul n' m' r' c' ts' =>
      simp only [beq, Bool.and_eq_true, decide_eq_true_eq] at h
      obtain ⟨⟨⟨⟨rfl, rfl⟩, rfl⟩, rfl⟩, h⟩ := h
      rw [beqs_eq h]
    | _ => simp [beq] at h
  | .add n r c ts, b, h => by
    cases b with
    | add n' r' c' ts' =>
      simp only [beq, Bool.and_eq_true, decide_eq_true_eq] at h
      obtain ⟨⟨⟨rfl, rfl⟩, rfl⟩, h⟩ := h
      rw [beqs_eq h]
    | _ => simp [beq] at h
theorem beqs_eq : ∀ {l m : List Blk}, beqs l m = true → l = m
  | [], [], _ => rfl
  | [], _ :: _, h => by simp [beqs] at h
  | _ :: _, [], h => by simp [beqs] at h
  | t :: ts, u :: us, h => by
    simp only [beqs, Bool.and_eq_true] at h
    rw [beq_eq h.1, beqs_eq h.2]
end

/-- The functions of the code, where an outcome is given only if it keeps the meaning for a plain reason: blocks found equal
are the same, and what is split off is a factor that is not a scalar and leaves such a factor. -/
def guardEq (n : ℕ) (a b : Blk) : Option Bool :=
  match pyEq n a b with
  | some true => if beq a b then some true else none
  | r => r

def guardFirst : Blk → Option (Blk × Blk)
  | .mul neg cm r c ts =>
    match ts with
    | [] => none
    | [_] => none
    | [a, b] => if !a.isScalar && !b.isScalar then some (a, b) else none
    | ts => do
      let (f, l) ← popFirst ts
      if (nonScalar l).isEmpty then none else some (f, .mul neg cm f.cols c l)
  | .const neg nm r c => if (Blk.const neg nm r c).isScalar then none else some (.const neg nm r c, cI c)
  | _ => none

def guardLast : Blk → Option (Blk × Blk)
  | .mul neg cm r c ts =>
    match ts with
    | [] => none
    | [_] => none
    | [a, b] => if !a.isScalar && !b.isScalar then some (a, b) else none
    | ts => do
      let (l, f) ← popLast ts
      if (nonScalar l).isEmpty then none else some (.mul neg cm r f.rows l, f)
  | .const neg nm r c =>
    if (Blk.const neg nm r c).isScalar then none else do some (← newI r, .const neg nm r c)
  | _ => none

def guarded (n : ℕ) : Rules := ⟨guardEq n, guardFirst, guardLast⟩

/-! ### The guarded functions keep the meaning -/

theorem guardEq_ok (n : ℕ) : EqOk (guardEq n) := by
  intro a b _ _ h
  unfold guardEq at h
  split at h
  · split_ifs at h with hb
    rw [beq_eq hb]
    exact Same.refl _
  · rename_i r hr
    exact absurd h (fun hc => hr hc)

theorem popFirst_some : ∀ {ts l : List Blk} {f : Blk}, popFirst ts = some (f, l) →
    ∃ pre post, ts = pre ++ f :: post ∧ l = pre ++ post ∧ nonScalar pre = [] ∧ f.isScalar = false := by
  intro ts
  induction ts with
  | nil =>
    intro l f h
    simp [popFirst] at h
  | cons t ts ih =>
    intro l f h
    rw [popFirst] at h
    split_ifs at h with ht
    · simp only [Option.bind_eq_bind, Option.bind_eq_some_iff] at h
      obtain ⟨⟨g, m⟩, h1, h2⟩ := h
      simp only [Option.some.injEq, Prod.mk.injEq] at h2
      obtain ⟨rfl, rfl⟩ := h2
      obtain ⟨pre, post, rfl, rfl, h3, h4⟩ := ih h1
      exact ⟨t :: pre, post, rfl, rfl, by rw [nonScalar_cons_of_scalar ht, h3], h4⟩
    · simp only [Option.some.injEq, Prod.mk.injEq] at h
      obtain ⟨rfl, rfl⟩ := h
      exact ⟨[], ts, rfl, rfl, rfl, by simpa using ht⟩

theorem popLast_none : ∀ {ts : List Blk}, popLast ts = none → nonScalar ts = [] := by
  intro ts
  induction ts with
  | nil => exact fun _ => rfl
  | cons t ts ih =>
    intro h
    rw [popLast] at h
    split at h
    · simp at h
    · rename_i hn
      split_ifs at h with ht
      rw [nonScalar_cons_of_scalar ht, ih hn]

theorem popLast_some : ∀ {ts l : List Blk} {f : Blk}, popLast ts = some (l, f) →
    ∃ pre post, ts = pre ++ f :: post ∧ l = pre ++ post ∧ nonScalar post = [] ∧ f.isScalar = false := by
  intro ts
  induction ts with
  | nil =>
    intro l f h
    simp [popLast] at h
  | cons t ts ih =>
    intro l f h
    rw [popLast] at h
    split at h
    · rename_i m g hm
      simp only [Option.some.injEq, Prod.mk.injEq] at h
      obtain ⟨rfl, rfl⟩ := h
      obtain ⟨pre, post, rfl, rfl, h3, h4⟩ := ih hm
      exact ⟨t :: pre, post, rfl, rfl, h3, h4⟩
    · rename_i hn
      split_ifs at h with ht
      simp only [Option.some.injEq, Prod.mk.injEq] at h
      obtain ⟨rfl, rfl⟩ := h
      exact ⟨[], ts, rfl, rfl, popLast_none hn, by simpa using ht⟩

/-- A first factor split off a product. -/
theorem split_first {cm : Bool} {r c : Dim} {pre post : List Blk} {f : Blk}
    (ha : good (.mul false cm r c (pre ++ f :: post))) (hp : nonScalar pre = []) (hf : f.isScalar = false)
    (hn : nonScalar (pre ++ post) ≠ []) :
    good f ∧ good (.mul false cm f.cols c (pre ++ post)) ∧ f.rows = r ∧ ∀ (N : ℕ) (V : Val N),
      den V (.mul false cm r c (pre ++ f :: post)) =
        norm (r, c) (den V f * den V (.mul false cm f.cols c (pre ++ post))) := by
  rw [good] at ha
  obtain ⟨-, h1, h2, h3⟩ := ha
  rw [goods_append, goods] at h1
  rw [chain_append] at h3
  obtain ⟨k, k1, k2⟩ := h3
  obtain rfl := chain_scalars hp k1
  rw [chain, if_neg (by simp [hf])] at k2
  have hg : goods (pre ++ post) := goods_append.2 ⟨h1.1, h1.2.2⟩
  have hc : chain f.cols (pre ++ post) c := chain_append.2 ⟨_, chain_of_scalars hp _, k2.2⟩
  refine ⟨h1.2.1, ?_, k2.1, fun N V => ?_⟩
  · rw [good]
    exact ⟨rfl, hg, hn, hc⟩
  · obtain ⟨x, hx⟩ := prods_scalars (V := V) (fits pre h1.1) hp
    have hprod : prods V (pre ++ f :: post) = den V f * prods V (pre ++ post) := by
      rw [prods_append, prods, prods_append, hx, smul_mul_assoc, one_mul, smul_mul_assoc, one_mul, mul_smul_comm]
    rw [den, den, show sgn false = 1 from rfl, one_smul, one_smul, hprod]
    by_cases hs : (f.cols, c) = one1
    · have hpf := prods_fit (V := V) (fits _ hg) hn hc
      rw [Prod.mk.injEq] at hs
      rw [hs.1, hs.2] at hpf
      obtain ⟨y, hy⟩ := pfit_one hpf
      rw [hs.1, hs.2, hy, norm_one_proj, mul_smul_comm, mul_smul_comm, mul_one]
      have hd := (den_plain (V := V) h1.2.1 hf).2
      rw [hs.1] at hd
      rw [hd]
    · rw [norm_of_ne hs]

/-- A last factor split off a product. -/
theorem split_last {cm : Bool} {r c : Dim} {pre post : List Blk} {f : Blk}
    (ha : good (.mul false cm r c (pre ++ f :: post))) (hp : nonScalar post = []) (hf : f.isScalar = false)
    (hn : nonScalar (pre ++ post) ≠ []) :
    good f ∧ good (.mul false cm r f.rows (pre ++ post)) ∧ f.cols = c ∧ ∀ (N : ℕ) (V : Val N),
      den V (.mul false cm r c (pre ++ f :: post)) =
        norm (r, c) (den V (.mul false cm r f.rows (pre ++ post)) * den V f) := by
  rw [good] at ha
  obtain ⟨-, h1, h2, h3⟩ := ha
  rw [goods_append, goods] at h1
  rw [chain_append] at h3
  obtain ⟨k, k1, k2⟩ := h3
  rw [chain, if_neg (by simp [hf])] at k2
  obtain ⟨rfl, k3⟩ := k2
  obtain rfl := chain_scalars hp k3
  have hg : goods (pre ++ post) := goods_append.2 ⟨h1.1, h1.2.2⟩
  have hc : chain r (pre ++ post) f.rows := chain_append.2 ⟨_, k1, chain_of_scalars hp _⟩
  refine ⟨h1.2.1, ?_, rfl, fun N V => ?_⟩
  · rw [good]
    exact ⟨rfl, hg, hn, hc⟩
  · obtain ⟨x, hx⟩ := prods_scalars (V := V) (fits post h1.2.2) hp
    have hprod : prods V (pre ++ f :: post) = prods V (pre ++ post) * den V f := by
      rw [prods_append, prods, prods_append, hx, mul_smul_comm, mul_one, mul_smul_comm, mul_smul_comm, mul_one,
        smul_mul_assoc]
    rw [den, den, show sgn false = 1 from rfl, one_smul, one_smul, hprod]
    by_cases hs : (r, f.rows) = one1
    · have hpf := prods_fit (V := V) (fits _ hg) hn hc
      rw [Prod.mk.injEq] at hs
      rw [hs.1, hs.2] at hpf
      obtain ⟨y, hy⟩ := pfit_one hpf
      have hd := (den_plain (V := V) h1.2.1 hf).1
      rw [hs.2] at hd
      rw [hs.1, hs.2, hy, norm_one_proj, smul_mul_assoc, smul_mul_assoc, one_mul, hd]
    · rw [norm_of_ne hs]

theorem guardFirst_ok {a : Blk} {l : List Blk} {f₀ f g : Blk} (ha : good a) (hl : a.iter = some l)
    (hf : (nonScalar l).head? = some f₀) (h : guardFirst a = some (f, g)) :
    good f ∧ good g ∧ f.isScalar = false ∧ Same f f₀ ∧ f.cols = g.rows ∧ a.shape = (f.rows, g.cols) ∧
      ∀ (N : ℕ) (V : Val N), den V a = norm a.shape (den V f * den V g) := by
  cases a with
  | mul neg cm r c ts =>
    obtain rfl : neg = false := by
      rw [good] at ha
      exact ha.1
    obtain rfl := Option.some.inj hl
    have pair : ∀ x y, ts = [x, y] → x.isScalar = false → y.isScalar = false →
        good x ∧ good y ∧ x.isScalar = false ∧ Same x f₀ ∧ x.cols = y.rows ∧ (r, c) = (x.rows, y.cols) ∧
          ∀ (N : ℕ) (V : Val N), den V (.mul false cm r c ts) = norm (r, c) (den V x * den V y) := by
      rintro x y rfl hx hy
      rw [nonScalar_cons_of_not hx, List.head?_cons] at hf
      obtain rfl := Option.some.inj hf
      rw [good, goods, goods, chain, if_neg (by simp [hx]), chain, if_neg (by simp [hy]), chain] at ha
      obtain ⟨-, ⟨g1, g2, -⟩, -, c1, c2, c3⟩ := ha
      refine ⟨g1, g2, hx, Same.refl _, c2.symm, by rw [c1, c3], fun N V => ?_⟩
      rw [den, prods, prods, prods, mul_one, show sgn false = 1 from rfl, one_smul]
    have pop : ∀ x m, popFirst ts = some (x, m) → (nonScalar m).isEmpty = false →
        good x ∧ good (.mul false cm x.cols c m) ∧ x.isScalar = false ∧ Same x f₀ ∧ (r, c) = (x.rows, c) ∧
          ∀ (N : ℕ) (V : Val N), den V (.mul false cm r c ts) = norm (r, c) (den V x * den V (.mul false cm x.cols c m)) := by
      intro x m hp hm
      obtain ⟨pre, post, rfl, rfl, h3, h4⟩ := popFirst_some hp
      have hn : nonScalar (pre ++ post) ≠ [] := by
        intro he
        rw [he] at hm
        simp at hm
      rw [nonScalar_append, h3, List.nil_append, nonScalar_cons_of_not h4, List.head?_cons] at hf
      obtain rfl := Option.some.inj hf
      obtain ⟨s1, s2, s3, s4⟩ := split_first ha h3 h4 hn
      exact ⟨s1, s2, h4, Same.refl _, by rw [s3], s4⟩
    match ts, h with
    | [], h => simp [guardFirst] at h
    | [_], h => simp [guardFirst] at h
    | [x, y], h =>
      rw [guardFirst] at h
      split_ifs at h with hs
      simp only [Option.some.injEq, Prod.mk.injEq] at h
      obtain ⟨rfl, rfl⟩ := h
      simp only [Bool.and_eq_true, Bool.not_eq_true'] at hs
      exact pair x y rfl hs.1 hs.2
    | x :: y :: z :: ts, h =>
      rw [guardFirst] at h
      · simp only [Option.bind_eq_bind, Option.bind_eq_some_iff] at h
        obtain ⟨⟨w, m⟩, h1, h2⟩ := h
        dsimp only at h2
        split_ifs at h2 with hs
        simp only [Option.some.injEq, Prod.mk.injEq] at h2
        obtain ⟨rfl, rfl⟩ := h2
        obtain ⟨p1, p2, p3, p4, p5, p6⟩ := pop w m h1 (by simpa using hs)
        exact ⟨p1, p2, p3, p4, rfl, p5, p6⟩
      all_goals simp
  | const neg nm r c =>
    rw [guardFirst] at h
    split_ifs at h with hs
    simp only [Option.some.injEq, Prod.mk.injEq] at h
    obtain ⟨rfl, rfl⟩ := h
    obtain rfl := Option.some.inj hl
    have hs' : (Blk.const neg nm r c).isScalar = false := by simpa using hs
    rw [nonScalar_cons_of_not hs', List.head?_cons] at hf
    obtain rfl := Option.some.inj hf
    refine ⟨ha, good_cI c, hs', Same.refl _, rfl, rfl, fun N V => ?_⟩
    have hp : den V (.const neg nm r c) * proj V c = den V (.const neg nm r c) := (den_plain (V := V) ha hs').2
    obtain ⟨i1, i2, i3⟩ := den_of_isIdent (good_cI c) rfl
    cases hi : (cI c).isScalar
    · rw [i3 hi]
      show _ = norm _ (_ * proj V c)
      rw [hp, norm_den ha]
    · rw [i2 hi, mul_one, norm_den ha]
  | _ => simp [guardFirst] at h

theorem guardLast_ok {a : Blk} {l : List Blk} {f₀ f g : Blk} (ha : good a) (hl : a.iter = some l)
    (hf : (nonScalar l).getLast? = some f₀) (h : guardLast a = some (g, f)) :
    good f ∧ good g ∧ f.isScalar = false ∧ Same f f₀ ∧ g.cols = f.rows ∧ a.shape = (g.rows, f.cols) ∧
      ∀ (N : ℕ) (V : Val N), den V a = norm a.shape (den V g * den V f) := by
  cases a with
  | mul neg cm r c ts =>
    obtain rfl : neg = false := by
      rw [good] at ha
      exact ha.1
    obtain rfl := Option.some.inj hl
    have pair : ∀ x y, ts = [x, y] → x.isScalar = false → y.isScalar = false →
        good y ∧ good x ∧ y.isScalar = false ∧ Same y f₀ ∧ x.cols = y.rows ∧ (r, c) = (x.rows, y.cols) ∧
          ∀ (N : ℕ) (V : Val N), den V (.mul false cm r c ts) = norm (r, c) (den V x * den V y) := by
      rintro x y rfl hx hy
      rw [nonScalar_cons_of_not hx, nonScalar_cons_of_not hy] at hf
      obtain rfl : y = f₀ := by simpa [nonScalar] using hf
      rw [good, goods, goods, chain, if_neg (by simp [hx]), chain, if_neg (by simp [hy]), chain] at ha
      obtain ⟨-, ⟨g1, g2, -⟩, -, c1, c2, c3⟩ := ha
      refine ⟨g2, g1, hy, Same.refl _, c2.symm, by rw [c1, c3], fun N V => ?_⟩
      rw [den, prods, prods, prods, mul_one, show sgn false = 1 from rfl, one_smul]
    have pop : ∀ x m, popLast ts = some (m, x) → (nonScalar m).isEmpty = false →
        good x ∧ good (.mul false cm r x.rows m) ∧ x.isScalar = false ∧ Same x f₀ ∧ (r, c) = (r, x.cols) ∧
          ∀ (N : ℕ) (V : Val N), den V (.mul false cm r c ts) = norm (r, c) (den V (.mul false cm r x.rows m) * den V x) := by
      intro x m hp hm
      obtain ⟨pre, post, rfl, rfl, h3, h4⟩ := popLast_some hp
      have hn : nonScalar (pre ++ post) ≠ [] := by
        intro he
        rw [he] at hm
        simp at hm
      rw [nonScalar_append, nonScalar_cons_of_not h4, h3] at hf
      obtain rfl : x = f₀ := by simpa using hf
      obtain ⟨s1, s2, s3, s4⟩ := split_last ha h3 h4 hn
      exact ⟨s1, s2, h4, Same.refl _, by rw [s3], s4⟩
    match ts, h with
    | [], h => simp [guardLast] at h
    | [_], h => simp [guardLast] at h
    | [x, y], h =>
      rw [guardLast] at h
      split_ifs at h with hs
      simp only [Option.some.injEq, Prod.mk.injEq] at h
      obtain ⟨rfl, rfl⟩ := h
      simp only [Bool.and_eq_true, Bool.not_eq_true'] at hs
      exact pair x y rfl hs.1 hs.2
    | x :: y :: z :: ts, h =>
      rw [guardLast] at h
      · simp only [Option.bind_eq_bind, Option.bind_eq_some_iff] at h
        obtain ⟨⟨m, w⟩, h1, h2⟩ := h
        dsimp only at h2
        split_ifs at h2 with hs
        simp only [Option.some.injEq, Prod.mk.injEq] at h2
        obtain ⟨rfl, rfl⟩ := h2
        obtain ⟨p1, p2, p3, p4, p5, p6⟩ := pop w m h1 (by simpa using hs)
        exact ⟨p1, p2, p3, p4, rfl, p5, p6⟩
      all_goals simp
  | const neg nm r c =>
    rw [guardLast] at h
    split_ifs at h with hs
    simp only [Option.bind_eq_bind, Option.bind_eq_some_iff] at h
    obtain ⟨I, h1, h2⟩ := h
    simp only [Option.some.injEq, Prod.mk.injEq] at h2
    obtain ⟨rfl, rfl⟩ := h2
    obtain rfl : I = cI r := by
      cases r with
      | num n => exact (Option.some.inj h1).symm
      | var k => simp [newI] at h1
    obtain rfl := Option.some.inj hl
    have hs' : (Blk.const neg nm r c).isScalar = false := by simpa using hs
    rw [nonScalar_cons_of_not hs'] at hf
    obtain rfl : Blk.const neg nm r c = f₀ := by simpa [nonScalar] using hf
    refine ⟨ha, good_cI r, hs', Same.refl _, rfl, rfl, fun N V => ?_⟩
    have hp : proj V r * den V (.const neg nm r c) = den V (.const neg nm r c) := (den_plain (V := V) ha hs').1
    obtain ⟨i1, i2, i3⟩ := den_of_isIdent (good_cI r) rfl
    cases hi : (cI r).isScalar
    · rw [i3 hi]
      show _ = norm _ (proj V r * _)
      rw [hp, norm_den ha]
    · rw [i2 hi, one_mul, norm_den ha]
  | _ => simp [guardLast] at h

theorem guarded_sound (n : ℕ) : Sound (guarded n) :=
  ⟨guardEq_ok n, fun _ _ _ _ _ h1 h2 h3 h4 => guardFirst_ok h1 h2 h3 h4, fun _ _ _ _ _ h1 h2 h3 h4 => guardLast_ok h1 h2 h3 h4⟩

/-! ### The guarded functions agree with the code where they give an outcome -/

/-- The second outcome is the first one, if there is a first one. -/
def Ref {α : Type} (x y : Option α) : Prop := ∀ a, x = some a → y = some a

theorem Ref.refl {α : Type} (x : Option α) : Ref x x := fun _ h => h

theorem Ref.bind {α β : Type} {x y : Option α} {f g : α → Option β} (h : Ref x y) (hf : ∀ a, Ref (f a) (g a)) :
    Ref (x >>= f) (y >>= g) := by
  intro b hb
  rw [Option.bind_eq_bind, Option.bind_eq_some_iff] at hb ⊢
  obtain ⟨a, h1, h2⟩ := hb
  exact ⟨a, h a h1, hf a b h2⟩

theorem Ref.ite {α : Type} {p : Prop} [Decidable p] {x y x' y' : Option α} (h : Ref x x') (h' : Ref y y') :
    Ref (if p then x else y) (if p then x' else y') := by
  split_ifs
  · exact h
  · exact h'

abbrev EqRef (eq eq' : Blk → Blk → Option Bool) : Prop := ∀ a b, Ref (eq a b) (eq' a b)

abbrev FunRef (f g : Blk → Option Blk) : Prop := ∀ a, Ref (f a) (g a)

structure RulesRef (R R' : Rules) : Prop where
  eq : EqRef R.eq R'.eq
  first : ∀ a, Ref (R.stripFirst a) (R'.stripFirst a)
  last : ∀ a, Ref (R.stripLast a) (R'.stripLast a)

variable {eq eq' : Blk → Blk → Option Bool} {R R' : Rules}

theorem gather_ref (h : EqRef eq eq') (t : Blk) : ∀ us, Ref (gather eq t us) (gather eq' t us)
  | [] => Ref.refl _
  | u :: us => by
    rw [gather, gather]
    exact Ref.bind (h t u) fun e => Ref.bind (gather_ref h t us) fun _ => Ref.refl _

theorem factorAt_ref (h : EqRef eq eq') (i : ℕ) (ts : List Blk) : Ref (factorAt eq i ts) (factorAt eq' i ts) := by
  unfold factorAt
  refine Ref.bind (Ref.refl _) fun t => Ref.bind (gather_ref h t _) ?_
  rintro ⟨k, pre⟩
  refine Ref.bind (gather_ref h t _) ?_
  rintro ⟨m, post⟩
  exact Ref.refl _

theorem factorLoop_ref (h : EqRef eq eq') : ∀ n i ts, Ref (factorLoop eq n i ts) (factorLoop eq' n i ts)
  | 0, _, _ => Ref.refl _
  | n + 1, i, ts => by
    rw [factorLoop, factorLoop]
    exact Ref.ite (Ref.bind (factorAt_ref h i ts) fun l => factorLoop_ref h n (i + 1) l) (Ref.refl _)

theorem anyM_ref {f g : Blk → Option Bool} (h : ∀ a, Ref (f a) (g a)) : ∀ l, Ref (anyM f l) (anyM g l)
  | [] => Ref.refl _
  | t :: l => by
    rw [anyM, anyM]
    exact Ref.bind (h t) fun e => Ref.ite (Ref.refl _) (anyM_ref h l)

theorem sameScalar_ref (h : EqRef eq eq') (sc : List Blk) : ∀ l, Ref (sameScalar eq sc l) (sameScalar eq' sc l)
  | [] => Ref.refl _
  | u :: l => by
    rw [sameScalar, sameScalar]
    exact Ref.bind (anyM_ref (fun t => h t u) sc) fun e => Ref.ite (Ref.refl _) (sameScalar_ref h sc l)

theorem split_ref (h : EqRef eq eq') (s : Blk) : ∀ l, Ref (split eq s l) (split eq' s l)
  | [] => Ref.refl _
  | t :: l => by
    rw [split, split]
    exact Ref.bind (h t s) fun e => Ref.ite (Ref.refl _) (Ref.bind (split_ref h s l) fun _ => Ref.refl _)

theorem stripScalar_ref (h : EqRef eq eq') (s a : Blk) : Ref (stripScalar eq s a) (stripScalar eq' s a) := by
  cases a with
  | mul neg cm r c ts =>
    rw [stripScalar, stripScalar]
    exact Ref.bind (split_ref h s ts) fun _ => Ref.refl _
  | _ => exact Ref.refl _

theorem fsJ_ref (h : EqRef eq eq') {rec rec' : Blk → Option Blk} (hr : FunRef rec rec') (i : ℕ) :
    ∀ n j ti ts md, Ref (fsJ eq rec i n j ti ts md) (fsJ eq' rec' i n j ti ts md)
  | 0, _, _, _, _ => Ref.refl _
  | n + 1, j, ti, ts, md => by
    rw [fsJ, fsJ]
    cases ts[j]? with
    | none => exact Ref.refl _
    | some tj =>
      dsimp only
      split
      · refine Ref.bind (sameScalar_ref h _ _) fun o => ?_
        cases o with
        | none => exact fsJ_ref h hr i n _ _ _ _
        | some s =>
          refine Ref.bind (stripScalar_ref h s _) ?_
          rintro ⟨f, ri⟩
          refine Ref.bind (stripScalar_ref h s _) ?_
          rintro ⟨f', rj⟩
          refine Ref.bind (Ref.refl _) fun a => Ref.bind (hr a) fun e => Ref.bind (Ref.refl _) fun m => ?_
          exact Ref.ite (Ref.refl _) (fsJ_ref h hr i n _ _ _ _)
      · exact fsJ_ref h hr i n _ _ _ _

theorem fsI_ref (h : EqRef eq eq') {rec rec' : Blk → Option Blk} (hr : FunRef rec rec') (m : ℕ) :
    ∀ n i ts md, Ref (fsI eq rec m n i ts md) (fsI eq' rec' m n i ts md)
  | 0, _, _, _ => Ref.refl _
  | n + 1, i, ts, md => by
    rw [fsI, fsI]
    cases ts[i]? with
    | none => exact Ref.refl _
    | some ti =>
      refine Ref.bind (fsJ_ref h hr i m _ _ _ _) ?_
      rintro ⟨st, md'⟩
      cases st with
      | one b => exact Ref.refl _
      | sum us => exact fsI_ref h hr m n _ _ _

theorem factorScalars_ref (h : EqRef eq eq') : ∀ n, FunRef (factorScalars eq n) (factorScalars eq' n)
  | 0, _ => Ref.refl _
  | n + 1, e => by
    cases e with
    | add neg r c ts =>
      rw [factorScalars, factorScalars]
      refine Ref.bind (fsI_ref h (factorScalars_ref h n) n n 0 ts false) ?_
      rintro ⟨st, md⟩
      cases st with
      | one b => exact Ref.refl _
      | sum us =>
        cases md with
        | true => exact factorScalars_ref h n _
        | false => exact Ref.refl _
    | _ => exact Ref.refl _

theorem sameFirst_ref (h : EqRef eq eq') (a b : Blk) : Ref (sameFirst eq a b) (sameFirst eq' a b) := by
  unfold sameFirst
  exact Ref.bind (Ref.refl _) fun l => Ref.bind (Ref.refl _) fun m => Ref.bind (Ref.refl _) fun f =>
    Ref.bind (Ref.refl _) fun g => h f g

theorem sameLast_ref (h : EqRef eq eq') (a b : Blk) : Ref (sameLast eq a b) (sameLast eq' a b) := by
  unfold sameLast
  exact Ref.bind (Ref.refl _) fun l => Ref.bind (Ref.refl _) fun m => Ref.bind (Ref.refl _) fun f =>
    Ref.bind (Ref.refl _) fun g => h f g

theorem noPair_ref (h : EqRef eq eq') (a : Blk) : ∀ l, Ref (noPair eq a l) (noPair eq' a l)
  | [] => Ref.refl _
  | b :: l => by
    rw [noPair, noPair]
    exact Ref.ite (noPair_ref h a l) (Ref.bind (h a b) fun e => Ref.ite (Ref.refl _) (noPair_ref h a l))

theorem noPairs_ref (h : EqRef eq eq') : ∀ l, Ref (noPairs eq l) (noPairs eq' l)
  | [] => Ref.refl _
  | a :: l => by
    rw [noPairs, noPairs]
    exact Ref.bind (noPair_ref h a l) fun _ => noPairs_ref h l

theorem ffJ_ref (h : RulesRef R R') {rec rec' : Blk → Option Blk} (hr : FunRef rec rec') (i : ℕ) :
    ∀ n j ti ts, Ref (ffJ R rec i n j ti ts) (ffJ R' rec' i n j ti ts)
  | 0, _, _, _ => Ref.refl _
  | n + 1, j, ti, ts => by
    rw [ffJ, ffJ]
    cases ts[j]? with
    | none => exact Ref.refl _
    | some tj =>
      refine Ref.ite (ffJ_ref h hr i n _ _ _) (Ref.bind (sameFirst_ref h.eq ti tj) fun o => Ref.ite ?_ (ffJ_ref h hr i n _ _ _))
      refine Ref.bind (h.first ti) ?_
      rintro ⟨f, ri⟩
      refine Ref.bind (h.first tj) ?_
      rintro ⟨f', rj⟩
      refine Ref.bind (Ref.refl _) fun a => Ref.bind (hr a) fun e => Ref.bind (Ref.refl _) fun m => ?_
      exact Ref.ite (Ref.refl _) (ffJ_ref h hr i n _ _ _)

theorem ffI_ref (h : RulesRef R R') {rec rec' : Blk → Option Blk} (hr : FunRef rec rec') (m : ℕ) :
    ∀ n i ts, Ref (ffI R rec m n i ts) (ffI R' rec' m n i ts)
  | 0, _, _ => Ref.refl _
  | n + 1, i, ts => by
    rw [ffI, ffI]
    cases ts[i]? with
    | none => exact Ref.refl _
    | some ti =>
      refine Ref.bind (ffJ_ref h hr i m _ _ _) fun st => ?_
      cases st with
      | one b => exact Ref.refl _
      | sum us => exact ffI_ref h hr m n _ _

theorem factorFirst_ref (h : RulesRef R R') : ∀ n, FunRef (factorFirst R n) (factorFirst R' n)
  | 0, _ => Ref.refl _
  | n + 1, e => by
    cases e with
    | add neg r c ts =>
      rw [factorFirst, factorFirst]
      refine Ref.bind (ffI_ref h (factorFirst_ref h n) n n 0 ts) fun st => ?_
      cases st with
      | one b =>
        exact Ref.bind (noPair_ref (sameFirst_ref h.eq) _ _) fun _ =>
          Ref.bind (noPairs_ref (sameFirst_ref h.eq) _) fun _ => Ref.refl _
      | sum us => exact Ref.refl _
    | _ =>
      simp only [factorFirst]
      exact Ref.bind (noPairs_ref (sameFirst_ref h.eq) _) fun _ => Ref.refl _

theorem flJ_ref (h : RulesRef R R') (i : ℕ) : ∀ n j ti ts, Ref (flJ R i n j ti ts) (flJ R' i n j ti ts)
  | 0, _, _, _ => Ref.refl _
  | n + 1, j, ti, ts => by
    rw [flJ, flJ]
    cases ts[j]? with
    | none => exact Ref.refl _
    | some tj =>
      refine Ref.ite (flJ_ref h i n _ _ _) (Ref.bind (sameLast_ref h.eq ti tj) fun o => Ref.ite ?_ (flJ_ref h i n _ _ _))
      refine Ref.bind (h.last ti) ?_
      rintro ⟨ri, f⟩
      refine Ref.bind (h.last tj) ?_
      rintro ⟨rj, f'⟩
      refine Ref.bind (Ref.refl _) fun a => Ref.bind (Ref.refl _) fun m => ?_
      exact Ref.ite (Ref.refl _) (flJ_ref h i n _ _ _)

theorem flI_ref (h : RulesRef R R') (m : ℕ) : ∀ n i ts, Ref (flI R m n i ts) (flI R' m n i ts)
  | 0, _, _ => Ref.refl _
  | n + 1, i, ts => by
    rw [flI, flI]
    cases ts[i]? with
    | none => exact Ref.refl _
    | some ti =>
      refine Ref.bind (flJ_ref h i m _ _ _) fun st => ?_
      cases st with
      | one b => exact Ref.refl _
      | sum us => exact flI_ref h m n _ _

theorem factorLast_ref (h : RulesRef R R') (n : ℕ) : FunRef (factorLast R n) (factorLast R' n) := by
  intro e
  cases e with
  | add neg r c ts =>
    rw [factorLast, factorLast]
    refine Ref.bind (flI_ref h n n 0 ts) fun st => ?_
    cases st with
    | one b => exact Ref.refl _
    | sum us => exact Ref.refl _
  | _ =>
    simp only [factorLast]
    exact Ref.bind (noPairs_ref (sameLast_ref h.eq) _) fun _ => Ref.refl _

theorem mapM_ref {f g : Blk → Option Blk} (h : FunRef f g) : ∀ l, Ref (mapM f l) (mapM g l)
  | [] => Ref.refl _
  | t :: l => by
    rw [mapM, mapM]
    exact Ref.bind (h t) fun _ => Ref.bind (mapM_ref h l) fun _ => Ref.refl _

theorem reduceTerm_ref {f g : Blk → Option Blk} (h : FunRef f g) : FunRef (reduceTerm f) (reduceTerm g) := by
  intro t
  cases t with
  | add neg r c ts => exact h _
  | mul neg cm r c ts =>
    rw [reduceTerm, reduceTerm]
    exact Ref.bind (mapM_ref (fun u => Ref.ite (h u) (Ref.refl _)) ts) fun _ => Ref.refl _
  | _ => exact Ref.refl _

theorem reduce_ref (h : RulesRef R R') : ∀ n, FunRef (reduce R n) (reduce R' n)
  | 0, _ => Ref.refl _
  | n + 1, e => by
    cases e with
    | add neg r c ts =>
      rw [reduce, reduce]
      refine Ref.bind (factorLoop_ref h.eq _ _ _) fun us => Ref.bind ?_ fun a => ?_
      · unfold combine
        exact Ref.bind (factorScalars_ref h.eq n _) fun a => Ref.bind (factorFirst_ref h n a) fun b => factorLast_ref h n b
      · cases a with
        | add neg r c us => exact Ref.bind (mapM_ref (reduceTerm_ref (reduce_ref h n)) us) fun _ => Ref.refl _
        | mul neg cm r c us => exact Ref.bind (mapM_ref (reduceTerm_ref (reduce_ref h n)) us) fun _ => Ref.refl _
        | _ => exact Ref.refl _
    | _ => exact Ref.refl _

theorem guarded_ref (n : ℕ) : RulesRef (guarded n) (code n) where
  eq a b x h := by
    change guardEq n a b = some x at h
    show pyEq n a b = some x
    unfold guardEq at h
    split at h
    · rename_i he
      split_ifs at h
      rw [he, h]
    · exact h
  first a x h := by
    change guardFirst a = some x at h
    show stripFirst a = some x
    cases a with
    | mul neg cm r c ts =>
      match ts, h with
      | [], h => simp [guardFirst] at h
      | [_], h => simp [guardFirst] at h
      | [y, z], h =>
        rw [guardFirst] at h
        split_ifs at h
        exact h
      | y :: z :: w :: ts, h =>
        rw [guardFirst] at h
        · rw [stripFirst]
          · simp only [Option.bind_eq_bind, Option.bind_eq_some_iff] at h ⊢
            obtain ⟨⟨f, l⟩, h1, h2⟩ := h
            refine ⟨(f, l), h1, ?_⟩
            dsimp only at h2
            split_ifs at h2
            exact h2
          all_goals simp
        all_goals simp
    | const neg nm r c =>
      rw [guardFirst] at h
      split_ifs at h
      exact h
    | _ => simp [guardFirst] at h
  last a x h := by
    change guardLast a = some x at h
    show stripLast a = some x
    cases a with
    | mul neg cm r c ts =>
      match ts, h with
      | [], h => simp [guardLast] at h
      | [_], h => simp [guardLast] at h
      | [y, z], h =>
        rw [guardLast] at h
        split_ifs at h
        exact h
      | y :: z :: w :: ts, h =>
        rw [guardLast] at h
        · rw [stripLast]
          · simp only [Option.bind_eq_bind, Option.bind_eq_some_iff] at h ⊢
            obtain ⟨⟨l, f⟩, h1, h2⟩ := h
            refine ⟨(l, f), h1, ?_⟩
            dsimp only at h2
            split_ifs at h2
            exact h2
          all_goals simp
        all_goals simp
    | const neg nm r c =>
      rw [guardLast] at h
      split_ifs at h
      exact h
    | _ => simp [guardLast] at h

/-- `reduce` of the code keeps the meaning of every expression on which the guarded functions give an outcome, and has that
outcome. -/
theorem C53_reduce_partial {n m : ℕ} {e e' : Blk} (hg : good e) (h : reduce (guarded n) m e = some e') :
    reduce (code n) m e = some e' ∧ good e' ∧ e'.shape = e.shape ∧ ∀ (N : ℕ) (V : Val N), den V e' = den V e := by
  obtain ⟨h1, h2, h3⟩ := reduce_ok (guarded_sound n) m e e' hg h
  exact ⟨reduce_ref (guarded_ref n) m e e' h, h1, h2, h3⟩

end Verif.Props.Symb
