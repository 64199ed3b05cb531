import Verif.Props.SymbGuard

/-!
When blocks are found different, and when a sum stays as it is in the factoring steps.
-/

namespace Verif.Lemmas.Symb

open Verif.Model.Symb Verif.Model.Symb.Blk Verif.Props.Symb

mutual
/-- A name occurs in a block. -/
def occ (nm : Name) : Blk → Prop
  | const _ m _ _ => nm = m
  | tr _ b => occ nm b
  | mul _ _ _ _ ts => occs nm ts
  | add _ _ _ ts => occs nm ts
def occs (nm : Name) : List Blk → Prop
  | [] => False
  | t :: ts => occ nm t ∨ occs nm ts
end

theorem occs_iff {nm : Name} : ∀ {l : List Blk}, occs nm l ↔ ∃ t ∈ l, occ nm t
  | [] => by simp [occs]
  | t :: ts => by simp [occs, occs_iff (l := ts)]

theorem mem_join {x : Tok} {sep : Tok} (h : x ≠ sep) : ∀ l : List (List Tok), x ∈ join sep l ↔ ∃ a ∈ l, x ∈ a
  | [] => by simp [join]
  | [a] => by simp [join]
  | a :: b :: l => by
    rw [join, List.mem_append, List.mem_cons, mem_join h (b :: l)]
    · simp [h]
    · exact fun x => by simp at x

theorem mem_text {nm : Name} : ∀ {a : Blk}, .name nm ∈ text a ↔ occ nm a := by
  apply Blk.rec (motive_1 := fun a => .name nm ∈ text a ↔ occ nm a)
    (motive_2 := fun ts => ∀ p, (∃ x ∈ texts p ts, Tok.name nm ∈ x) ↔ occs nm ts)
  · intro neg m r c
    cases neg <;> simp [text, occ]
  · intro neg b hb
    cases b <;> simp [text, occ] at hb ⊢ <;> exact hb
  · intro neg cm r c ts ih
    rw [text, List.mem_append, mem_join (by simp), ih]
    cases neg <;> simp [occ]
  · intro neg r c ts ih
    rw [text, mem_join (by cases neg <;> simp), ih]
    simp [occ]
  · intro p
    simp [texts, occs]
  · intro t ts ht hts p
    simp only [texts, List.mem_cons, occs, ← ht, ← hts p]
    constructor
    · rintro ⟨x, rfl | hx, h⟩
      · left
        split_ifs at h <;> simpa using h
      · exact .inr ⟨x, hx, h⟩
    · rintro (h | ⟨x, hx, h⟩)
      · refine ⟨_, .inl rfl, ?_⟩
        split_ifs <;> simp [h]
      · exact ⟨x, .inr hx, h⟩

theorem anyM_true {f : Blk → Option Bool} : ∀ {l : List Blk}, anyM f l = some true → ∃ t ∈ l, f t = some true
  | [], h => by simp [anyM] at h
  | t :: ts, h => by
    simp only [anyM, Option.bind_eq_bind, Option.bind_eq_some_iff] at h
    obtain ⟨b, hb, h⟩ := h
    cases b with
    | true => exact ⟨t, by simp, hb⟩
    | false =>
      obtain ⟨u, hu, h⟩ := anyM_true (by simpa using h)
      exact ⟨u, by simp [hu], h⟩

theorem allM_true {f : Blk → Option Bool} : ∀ {l : List Blk}, allM f l = some true → ∀ t ∈ l, f t = some true
  | [], _, t, ht => by simp at ht
  | t :: ts, h, u, hu => by
    simp only [allM, Option.bind_eq_bind, Option.bind_eq_some_iff] at h
    obtain ⟨b, hb, h⟩ := h
    cases b with
    | false => simp at h
    | true =>
      rcases List.mem_cons.mp hu with rfl | hu
      · exact hb
      · exact allM_true (by simpa using h) u hu

theorem itemsEq_true {eq : Blk → Blk → Option Bool} {nm : Name}
    (hq : ∀ a b, eq a b = some true → (occ nm a ↔ occ nm b)) :
    ∀ {l m : List Blk}, l.length = m.length → itemsEq eq l m = some true → (occs nm l ↔ occs nm m)
  | [], [], _, _ => Iff.rfl
  | [], _ :: _, h, _ => by simp at h
  | _ :: _, [], h, _ => by simp at h
  | a :: l, b :: m, hl, h => by
    simp only [itemsEq, Option.bind_eq_bind, Option.bind_eq_some_iff] at h
    obtain ⟨x, hx, h⟩ := h
    cases x with
    | false => simp at h
    | true =>
      rw [occs, occs, hq a b hx, itemsEq_true hq (by simpa using hl) (by simpa using h)]

theorem listEq_true {eq : Blk → Blk → Option Bool} {nm : Name} (hq : ∀ a b, eq a b = some true → (occ nm a ↔ occ nm b))
    {l m : List Blk} (h : listEq eq l m = some true) : occs nm l ↔ occs nm m := by
  unfold listEq at h
  split_ifs at h with hl
  · exact itemsEq_true hq hl h
  · simp at h

theorem sets_true {f : Blk → Blk → Option Bool} {nm : Name} (hq : ∀ a b, f a b = some true → (occ nm a ↔ occ nm b))
    {l m : List Blk} (h : allM (fun t => anyM (fun u => f u t) m) l = some true)
    (h' : allM (fun t => anyM (fun u => f u t) l) m = some true) : occs nm l ↔ occs nm m := by
  rw [occs_iff, occs_iff]
  constructor
  · rintro ⟨t, ht, ho⟩
    obtain ⟨u, hu, h⟩ := anyM_true (allM_true h t ht)
    exact ⟨u, hu, (hq _ _ h).mpr ho⟩
  · rintro ⟨t, ht, ho⟩
    obtain ⟨u, hu, h⟩ := anyM_true (allM_true h' t ht)
    exact ⟨u, hu, (hq _ _ h).mpr ho⟩

theorem occs_split {nm : Name} (p : Blk → Bool) (l : List Blk) :
    occs nm l ↔ occs nm (l.filter p) ∨ occs nm (l.filter fun t => !p t) := by
  simp only [occs_iff, List.mem_filter]
  constructor
  · rintro ⟨t, ht, h⟩
    cases hp : p t
    · exact .inr ⟨t, ⟨ht, by simp [hp]⟩, h⟩
    · exact .inl ⟨t, ⟨ht, hp⟩, h⟩
  · rintro (⟨t, ht, h⟩ | ⟨t, ht, h⟩)
    · exact ⟨t, ht.1, h⟩
    · exact ⟨t, ht.1, h⟩

theorem occs_iter {nm : Name} {b : Blk} {l : List Blk} (h : b.iter = some l) : occ nm b ↔ occs nm l := by
  cases b <;> simp only [iter, Option.some.injEq, reduceCtorEq] at h <;> subst h <;> simp [occ, occs]

/-- Blocks found equal have the same names. -/
theorem occ_of_pyEq {nm : Name} : ∀ (n : ℕ) (a b : Blk), pyEq n a b = some true → (occ nm a ↔ occ nm b)
  | 0, _, _, h => by simp [pyEq] at h
  | n + 1, a, b, h => by
    cases a with
    | const neg m r c =>
      simp only [pyEq, Option.some.injEq, decide_eq_true_eq] at h
      rw [← mem_text, ← mem_text, h.2]
    | tr neg a =>
      simp only [pyEq, Option.some.injEq, decide_eq_true_eq] at h
      rw [← mem_text, ← mem_text, h.2]
    | mul neg cm r c ts =>
      cases cm with
      | true =>
        simp only [pyEq, Option.bind_eq_bind, Option.bind_eq_some_iff] at h
        obtain ⟨us, hu, h⟩ := h
        split_ifs at h with hl
        · simp at h
        · simp only [Option.bind_eq_some_iff] at h
          obtain ⟨p, hp, q, hq, h⟩ := h
          split_ifs at h with hpq
          · simp only [Bool.and_eq_true] at hpq
            obtain ⟨rfl, rfl⟩ := hpq
            rw [occ, occs_iter hu, occs_split (fun t => t.isScalar) ts, occs_split (fun t => t.isScalar) us,
              sets_true (occ_of_pyEq n) hp hq]
            exact or_congr Iff.rfl (listEq_true (occ_of_pyEq n) h)
          · simp at h
      | false =>
        cases b <;> simp only [pyEq, Option.some.injEq, reduceCtorEq] at h
        rw [occ, occ]
        exact listEq_true (occ_of_pyEq n) h
    | add neg r c ts =>
      cases b <;> simp only [pyEq, Option.some.injEq, reduceCtorEq, Option.bind_eq_bind, Option.bind_eq_some_iff] at h
      obtain ⟨p, hp, q, hq, h⟩ := h
      simp only [Bool.and_eq_true] at h
      obtain ⟨rfl, rfl⟩ := h
      rw [occ, occ]
      exact sets_true (occ_of_pyEq n) hq hp

/-- Blocks of limited depth whose comparison ends: without transposes, or without scalar factors. -/
def cls (K : Bool) : ℕ → Blk → Prop
  | 0, _ => False
  | _ + 1, const .. => True
  | _ + 1, tr .. => K = true
  | n + 1, mul _ cm _ _ ts => (cm = true → K = false) ∧ ∀ t ∈ ts, cls K n t
  | n + 1, add _ _ _ ts => ∀ t ∈ ts, cls K n t

theorem anyM_some {f : Blk → Option Bool} : ∀ {l : List Blk}, (∀ t ∈ l, (f t).isSome = true) → (anyM f l).isSome = true
  | [], _ => rfl
  | t :: ts, h => by
    obtain ⟨b, hb⟩ := Option.isSome_iff_exists.mp (h t (by simp))
    simp only [anyM, hb, Option.bind_eq_bind, Option.bind_some]
    split_ifs
    · rfl
    · exact anyM_some fun u hu => h u (by simp [hu])

theorem allM_some {f : Blk → Option Bool} : ∀ {l : List Blk}, (∀ t ∈ l, (f t).isSome = true) → (allM f l).isSome = true
  | [], _ => rfl
  | t :: ts, h => by
    obtain ⟨b, hb⟩ := Option.isSome_iff_exists.mp (h t (by simp))
    simp only [allM, hb, Option.bind_eq_bind, Option.bind_some]
    split_ifs
    · exact allM_some fun u hu => h u (by simp [hu])
    · rfl

theorem itemsEq_some {f : Blk → Blk → Option Bool} : ∀ {l m : List Blk}, (∀ t ∈ l, ∀ u ∈ m, (f t u).isSome = true) →
    (itemsEq f l m).isSome = true
  | [], _, _ => rfl
  | _ :: _, [], _ => rfl
  | a :: l, b :: m, h => by
    obtain ⟨x, hx⟩ := Option.isSome_iff_exists.mp (h a (by simp) b (by simp))
    simp only [itemsEq, hx, Option.bind_eq_bind, Option.bind_some]
    split_ifs
    · exact itemsEq_some fun t ht u hu => h t (by simp [ht]) u (by simp [hu])
    · rfl

theorem listEq_some {f : Blk → Blk → Option Bool} {l m : List Blk} (h : ∀ t ∈ l, ∀ u ∈ m, (f t u).isSome = true) :
    (listEq f l m).isSome = true := by
  unfold listEq
  split_ifs
  · exact itemsEq_some h
  · rfl

/-- Their comparison ends. -/
theorem pyEq_some {K : Bool} : ∀ (n : ℕ) (a b : Blk), cls K n a → cls K n b → (pyEq n a b).isSome = true
  | 0, _, _, h, _ => h.elim
  | n + 1, a, b, ha, hb => by
    cases a with
    | const => rfl
    | tr => rfl
    | mul neg cm r c ts =>
      cases cm with
      | true =>
        obtain ⟨hK, ha⟩ := ha
        have hK := hK rfl
        obtain ⟨us, hu, hc⟩ : ∃ us, b.iter = some us ∧ ∀ u ∈ us, ∀ t, cls K n t → cls K n u := by
          cases b with
          | const =>
            refine ⟨_, rfl, fun u hu t ht => ?_⟩
            rw [List.mem_singleton.mp hu]
            cases n with
            | zero => exact ht.elim
            | succ n => exact trivial
          | tr => exact absurd (hb.symm.trans hK) (by simp)
          | mul => exact ⟨_, rfl, fun u hu _ _ => hb.2 u hu⟩
          | add => exact ⟨_, rfl, fun u hu _ _ => hb u hu⟩
        simp only [pyEq, hu, Option.bind_eq_bind, Option.bind_some]
        split_ifs with hl
        · rfl
        · obtain ⟨x, hx⟩ := Option.isSome_iff_exists.mp (allM_some
            (f := fun t => anyM (fun u => pyEq n u t) (us.filter fun t => t.isScalar)) (l := ts.filter fun t => t.isScalar)
            fun t ht => anyM_some fun u hu => pyEq_some n u t
              (hc u (List.mem_of_mem_filter hu) t (ha t (List.mem_of_mem_filter ht))) (ha t (List.mem_of_mem_filter ht)))
          obtain ⟨y, hy⟩ := Option.isSome_iff_exists.mp (allM_some
            (f := fun t => anyM (fun u => pyEq n u t) (ts.filter fun t => t.isScalar)) (l := us.filter fun t => t.isScalar)
            fun t ht => anyM_some fun u hu => pyEq_some n u t (ha u (List.mem_of_mem_filter hu))
              (hc t (List.mem_of_mem_filter ht) u (ha u (List.mem_of_mem_filter hu))))
          rw [hx, hy]
          simp only [Option.bind_some]
          split_ifs
          · exact listEq_some fun t ht u hu => pyEq_some n t u (ha t (List.mem_of_mem_filter ht))
              (hc u (List.mem_of_mem_filter hu) t (ha t (List.mem_of_mem_filter ht)))
          · rfl
      | false =>
        cases b with
        | mul neg' cm' r' c' us =>
          rw [pyEq]
          exact listEq_some fun t ht u hu => pyEq_some n t u (ha.2 t ht) (hb.2 u hu)
        | _ => rfl
    | add neg r c ts =>
      cases b with
      | add neg' r' c' us =>
        simp only [pyEq, Option.bind_eq_bind]
        obtain ⟨x, hx⟩ := Option.isSome_iff_exists.mp (allM_some (f := fun t => anyM (fun u => pyEq n u t) ts) (l := us)
          fun t ht => anyM_some fun u hu => pyEq_some n u t (ha u hu) (hb t ht))
        obtain ⟨y, hy⟩ := Option.isSome_iff_exists.mp (allM_some (f := fun t => anyM (fun u => pyEq n u t) us) (l := ts)
          fun t ht => anyM_some fun u hu => pyEq_some n u t (hb u hu) (ha t ht))
        rw [hx, hy]
        rfl
      | _ => rfl

/-- Blocks with different names are found different. -/
theorem guardEq_false {K : Bool} {n : ℕ} {a b : Blk} {nm : Name} (ha : cls K n a) (hb : cls K n b)
    (h : ¬ (occ nm a ↔ occ nm b)) : guardEq n a b = some false := by
  obtain ⟨x, hx⟩ := Option.isSome_iff_exists.mp (pyEq_some n a b ha hb)
  unfold guardEq
  rw [hx]
  cases x with
  | true => exact absurd (occ_of_pyEq n a b hx) h
  | false => rfl

/-! ### Sums that stay as they are -/

/-- Two terms of a sum that are different, that have no scalar, first or last factor in common. -/
def Ne (eq : Blk → Blk → Option Bool) (t u : Blk) : Prop := eq t u = some false ∧ eq u t = some false
def NoScal (eq : Blk → Blk → Option Bool) (t u : Blk) : Prop :=
  ∀ neg cm r c us neg' cm' r' c' ws, t = .mul neg cm r c us → u = .mul neg' cm' r' c' ws →
    sameScalar eq (us.filter fun t => t.isScalar) ws = some none
def NoFirst (eq : Blk → Blk → Option Bool) (t u : Blk) : Prop := sameFirst eq t u = some false
def NoLast (eq : Blk → Blk → Option Bool) (t u : Blk) : Prop := sameLast eq t u = some false

/-- Two terms of a sum with nothing in common. -/
structure Apart (eq : Blk → Blk → Option Bool) (t u : Blk) : Prop where
  ne : Ne eq t u
  scal : NoScal eq t u
  first : NoFirst eq t u
  last : NoLast eq t u

theorem gather_none {eq : Blk → Blk → Option Bool} {t : Blk} : ∀ {l : List Blk}, (∀ u ∈ l, eq t u = some false) →
    gather eq t l = some (0, l)
  | [], _ => rfl
  | u :: us, h => by
    rw [gather, h u (by simp), gather_none fun v hv => h v (by simp [hv])]
    rfl

variable {eq : Blk → Blk → Option Bool} {ts : List Blk}

theorem pair_at {P : Blk → Blk → Prop} (h : ts.Pairwise P) {i j : ℕ} {t u : Blk} (hij : i < j) (hi : ts[i]? = some t)
    (hj : ts[j]? = some u) : P t u := by
  obtain ⟨hi', rfl⟩ := List.getElem?_eq_some_iff.mp hi
  obtain ⟨hj', rfl⟩ := List.getElem?_eq_some_iff.mp hj
  exact List.pairwise_iff_getElem.mp h i j hi' hj' hij

theorem factorAt_apart (h : ts.Pairwise (Ne eq)) {i : ℕ} (hi : i < ts.length) : factorAt eq i ts = some ts := by
  have hu : ts[i]? = some ts[i] := List.getElem?_eq_getElem hi
  unfold factorAt
  rw [hu]
  simp only [Option.bind_eq_bind, Option.bind_some]
  rw [gather_none (l := ts.take i), gather_none (l := ts.drop (i + 1))]
  · rfl
  · intro u hu'
    obtain ⟨j, hj, rfl⟩ := List.mem_iff_getElem.mp hu'
    rw [List.getElem_drop]
    rw [List.length_drop] at hj
    exact (pair_at h (show i < i + 1 + j by omega) hu (List.getElem?_eq_getElem (by omega))).1
  · intro u hu'
    obtain ⟨j, hj, rfl⟩ := List.mem_iff_getElem.mp hu'
    rw [List.getElem_take]
    rw [List.length_take] at hj
    exact (pair_at h (show j < i by omega) (List.getElem?_eq_getElem (by omega)) hu).2

theorem factorLoop_apart (h : ts.Pairwise (Ne eq)) : ∀ (n i : ℕ), ts.length - i < n → factorLoop eq n i ts = some ts
  | 0, i, hi => absurd hi (by omega)
  | n + 1, i, hi => by
    rw [factorLoop]
    split_ifs with hl
    · rw [factorAt_apart h hl]
      exact factorLoop_apart h n (i + 1) (by omega)
    · rfl

theorem factor_apart (h : ts.Pairwise (Ne eq)) : factor eq ts = some ts := factorLoop_apart h _ _ (by omega)

theorem fsJ_apart {rec : Blk → Option Blk} {i : ℕ} {ti : Blk} {md : Bool} : ∀ (n j : ℕ), ts.length - j < n →
    (∀ k u, j ≤ k → ts[k]? = some u → ∀ neg cm r c us neg' cm' r' c' ws, ti = .mul neg cm r c us → u = .mul neg' cm' r' c' ws →
      sameScalar eq (us.filter fun t => t.isScalar) ws = some none) →
    fsJ eq rec i n j ti ts md = some (.sum ts, md)
  | 0, j, hi, _ => absurd hi (by omega)
  | n + 1, j, hi, h => by
    rw [fsJ]
    cases hj : ts[j]? with
    | none => rfl
    | some tj =>
      have hl : j < ts.length := (List.getElem?_eq_some_iff.mp hj).1
      have hn : fsJ eq rec i n (j + 1) ti ts md = some (.sum ts, md) :=
        fsJ_apart n (j + 1) (by omega) fun k u hk => h k u (by omega)
      cases ti with
      | mul neg cm r c us =>
        cases tj with
        | mul neg' cm' r' c' ws =>
          simp only [h j _ (le_refl _) hj _ _ _ _ _ _ _ _ _ _ rfl rfl, Option.bind_eq_bind, Option.bind_some, hn]
        | _ => exact hn
      | _ => exact hn

theorem fsI_apart (h : ts.Pairwise (NoScal eq)) {rec : Blk → Option Blk} {m : ℕ} {md : Bool} (hm : ts.length < m) :
    ∀ (n i : ℕ), ts.length - i < n → fsI eq rec m n i ts md = some (.sum ts, md)
  | 0, i, hi => absurd hi (by omega)
  | n + 1, i, hi => by
    rw [fsI]
    cases hj : ts[i]? with
    | none => rfl
    | some ti =>
      have hl : i < ts.length := (List.getElem?_eq_some_iff.mp hj).1
      simp only [fsJ_apart m (i + 1) (by omega) fun k u hk hu => (pair_at h (show i < k by omega) hj hu),
        Option.bind_eq_bind, Option.bind_some, fsI_apart h hm n (i + 1) (by omega)]

theorem factorScalars_apart (h : ts.Pairwise (NoScal eq)) {n : ℕ} (hn : ts.length < n) (neg : Bool) (r c : Dim) :
    factorScalars eq (n + 1) (.add neg r c ts) = some (.add neg r c ts) := by
  simp only [factorScalars, fsI_apart h hn n 0 (by omega), Option.bind_eq_bind, Option.bind_some]

variable {R : Rules}

theorem ffJ_apart {rec : Blk → Option Blk} {i : ℕ} {ti : Blk} : ∀ (n j : ℕ), ts.length - j < n →
    (∀ k u, j ≤ k → ts[k]? = some u → (ti.isAdd || u.isAdd) = true ∨ sameFirst R.eq ti u = some false) →
    ffJ R rec i n j ti ts = some (.sum ts)
  | 0, j, hi, _ => absurd hi (by omega)
  | n + 1, j, hi, h => by
    rw [ffJ]
    cases hj : ts[j]? with
    | none => rfl
    | some tj =>
      have hl : j < ts.length := (List.getElem?_eq_some_iff.mp hj).1
      have hn : ffJ R rec i n (j + 1) ti ts = some (.sum ts) :=
        ffJ_apart n (j + 1) (by omega) fun k u hk => h k u (by omega)
      rcases h j tj (le_refl _) hj with h | h
      · simp only [h, if_true, hn]
      · simp only [h, Option.bind_eq_bind, Option.bind_some, hn, Bool.false_eq_true, if_false, ite_self]

theorem ffI_apart (h : ts.Pairwise (NoFirst R.eq)) {rec : Blk → Option Blk} {m : ℕ} (hm : ts.length < m) :
    ∀ (n i : ℕ), ts.length - i < n → ffI R rec m n i ts = some (.sum ts)
  | 0, i, hi => absurd hi (by omega)
  | n + 1, i, hi => by
    rw [ffI]
    cases hj : ts[i]? with
    | none => rfl
    | some ti =>
      have hl : i < ts.length := (List.getElem?_eq_some_iff.mp hj).1
      simp only [ffJ_apart m (i + 1) (by omega) fun k u hk hu => .inr (pair_at h (show i < k by omega) hj hu),
        Option.bind_eq_bind, Option.bind_some, ffI_apart h hm n (i + 1) (by omega)]

theorem factorFirst_apart (h : ts.Pairwise (NoFirst R.eq)) {n : ℕ} (hn : ts.length < n) (neg : Bool) (r c : Dim) :
    factorFirst R (n + 1) (.add neg r c ts) = some (.add neg r c ts) := by
  simp only [factorFirst, ffI_apart h hn n 0 (by omega), Option.bind_eq_bind, Option.bind_some]

theorem flJ_apart {i : ℕ} {ti : Blk} : ∀ (n j : ℕ), ts.length - j < n →
    (∀ k u, j ≤ k → ts[k]? = some u → (ti.isAdd || u.isAdd) = true ∨ sameLast R.eq ti u = some false) →
    flJ R i n j ti ts = some (.sum ts)
  | 0, j, hi, _ => absurd hi (by omega)
  | n + 1, j, hi, h => by
    rw [flJ]
    cases hj : ts[j]? with
    | none => rfl
    | some tj =>
      have hl : j < ts.length := (List.getElem?_eq_some_iff.mp hj).1
      have hn : flJ R i n (j + 1) ti ts = some (.sum ts) :=
        flJ_apart n (j + 1) (by omega) fun k u hk => h k u (by omega)
      rcases h j tj (le_refl _) hj with h | h
      · simp only [h, if_true, hn]
      · simp only [h, Option.bind_eq_bind, Option.bind_some, hn, Bool.false_eq_true, if_false, ite_self]

theorem flI_apart (h : ts.Pairwise (NoLast R.eq)) {m : ℕ} (hm : ts.length < m) :
    ∀ (n i : ℕ), ts.length - i < n → flI R m n i ts = some (.sum ts)
  | 0, i, hi => absurd hi (by omega)
  | n + 1, i, hi => by
    rw [flI]
    cases hj : ts[i]? with
    | none => rfl
    | some ti =>
      have hl : i < ts.length := (List.getElem?_eq_some_iff.mp hj).1
      simp only [flJ_apart m (i + 1) (by omega) fun k u hk hu => .inr (pair_at h (show i < k by omega) hj hu),
        Option.bind_eq_bind, Option.bind_some, flI_apart h hm n (i + 1) (by omega)]

theorem factorLast_apart (h : ts.Pairwise (NoLast R.eq)) {n : ℕ} (hn : ts.length < n) (neg : Bool) (r c : Dim) :
    factorLast R n (.add neg r c ts) = some (.add neg r c ts) := by
  simp only [factorLast, flI_apart h hn n 0 (by omega), Option.bind_eq_bind, Option.bind_some]

theorem combine_apart (h : ts.Pairwise (Apart R.eq)) {n : ℕ} (hn : ts.length + 1 < n) (neg : Bool) (r c : Dim) :
    combine R n (.add neg r c ts) = some (.add neg r c ts) := by
  obtain ⟨n, rfl⟩ : ∃ k, n = k + 1 := ⟨n - 1, by omega⟩
  simp only [combine, factorScalars_apart (h.imp Apart.scal) (show ts.length < n by omega),
    factorFirst_apart (h.imp Apart.first) (show ts.length < n by omega), factorLast_apart (h.imp Apart.last) (show ts.length < n + 1 by omega), Option.bind_eq_bind, Option.bind_some]

theorem mapM_some {f : Blk → Option Blk} : ∀ {l : List Blk}, (∀ t ∈ l, (f t).isSome = true) → (mapM f l).isSome = true
  | [], _ => rfl
  | t :: ts, h => by
    obtain ⟨b, hb⟩ := Option.isSome_iff_exists.mp (h t (by simp))
    obtain ⟨l, hl⟩ := Option.isSome_iff_exists.mp (mapM_some (f := f) (l := ts) fun u hu => h u (by simp [hu]))
    simp [mapM, hb, hl]

/-- A sum of terms with nothing in common is reduced if its terms are. -/
theorem reduce_apart (h : ts.Pairwise (Apart R.eq)) {n : ℕ} (hn : ts.length + 1 < n)
    (hr : ∀ t ∈ ts, (reduceTerm (reduce R n) t).isSome = true) (neg : Bool) (r c : Dim) :
    (reduce R (n + 1) (.add neg r c ts)).isSome = true := by
  obtain ⟨l, hl⟩ := Option.isSome_iff_exists.mp (mapM_some hr)
  simp only [reduce, factor_apart (h.imp Apart.ne), combine_apart h hn, Option.bind_eq_bind, Option.bind_some, hl]
  rfl

/-- A block that is not a sum is not changed. -/
theorem reduce_other {n : ℕ} {e : Blk} (h : e.isAdd = false) : reduce R (n + 1) e = some e := by
  cases e <;> first | rfl | simp [isAdd] at h

theorem reduceTerm_mul {rec : Blk → Option Blk} {neg cm : Bool} {r c : Dim} {us : List Blk}
    (h : ∀ u ∈ us, u.isAdd = true → (rec u).isSome = true) : (reduceTerm rec (.mul neg cm r c us)).isSome = true := by
  obtain ⟨l, hl⟩ := Option.isSome_iff_exists.mp (mapM_some (f := reduceFactor rec) (l := us) fun u hu => by
    unfold reduceFactor
    split_ifs with ha
    · exact h u hu ha
    · rfl)
  simp [reduceTerm, hl]

theorem guardEq_const {n : ℕ} (neg : Bool) (nm : Name) (r c : Dim) :
    guardEq (n + 1) (.const neg nm r c) (.const neg nm r c) = some true := by
  simp [guardEq, pyEq, beq]

theorem sameFirst_of {t u x y : Blk} {l m : List Blk} (ht : t.iter = some l) (hu : u.iter = some m)
    (hx : (nonScalar l).head? = some x) (hy : (nonScalar m).head? = some y) : sameFirst eq t u = eq x y := by
  simp only [sameFirst, ht, hu, hx, hy, Option.bind_eq_bind, Option.bind_some]

theorem sameLast_of {t u x y : Blk} {l m : List Blk} (ht : t.iter = some l) (hu : u.iter = some m)
    (hx : (nonScalar l).getLast? = some x) (hy : (nonScalar m).getLast? = some y) : sameLast eq t u = eq x y := by
  simp only [sameLast, ht, hu, hx, hy, Option.bind_eq_bind, Option.bind_some]

/-! ### Steps -/

theorem mkAdd_of {x y : Blk} {a b : Dim} (hx : x.shape = (a, b)) (hy : y.shape = (a, b)) :
    mkAdd x y = some (.add false a b (x.addTerms ++ y.addTerms)) := by
  unfold mkAdd Blk.rows Blk.cols
  rw [hx, hy, if_pos rfl]

theorem combine_of {n : ℕ} {e e1 e2 e3 : Blk} (h1 : factorScalars R.eq n e = some e1) (h2 : factorFirst R n e1 = some e2)
    (h3 : factorLast R n e2 = some e3) : combine R n e = some e3 := by
  simp only [combine, h1, h2, h3, Option.bind_eq_bind, Option.bind_some]

theorem reduce_mul {n : ℕ} {neg : Bool} {r c : Dim} {ts' : List Blk} {neg' cm' : Bool} {r' c' : Dim} {us : List Blk}
    (hf : factor R.eq ts = some ts') (hc : combine R n (.add neg r c ts') = some (.mul neg' cm' r' c' us))
    (hu : ∀ u ∈ us, (reduceTerm (reduce R n) u).isSome = true) : (reduce R (n + 1) (.add neg r c ts)).isSome = true := by
  obtain ⟨l, hl⟩ := Option.isSome_iff_exists.mp (mapM_some hu)
  rw [reduce]
  simp only [hf, hc, Option.bind_eq_bind, Option.bind_some, hl]
  rfl

theorem reduce_add {n : ℕ} {neg : Bool} {r c : Dim} {ts' : List Blk} {neg' : Bool} {r' c' : Dim} {us : List Blk}
    (hf : factor R.eq ts = some ts') (hc : combine R n (.add neg r c ts') = some (.add neg' r' c' us))
    (hu : ∀ u ∈ us, (reduceTerm (reduce R n) u).isSome = true) : (reduce R (n + 1) (.add neg r c ts)).isSome = true := by
  obtain ⟨l, hl⟩ := Option.isSome_iff_exists.mp (mapM_some hu)
  rw [reduce]
  simp only [hf, hc, Option.bind_eq_bind, Option.bind_some, hl]
  rfl

theorem ffJ_merge {rec : Blk → Option Blk} {i n j : ℕ} {ti tj f g ri rj s s' m : Blk} (hj : ts[j]? = some tj)
    (ha : (ti.isAdd || tj.isAdd) = false) (hs : sameFirst R.eq ti tj = some true) (h1 : R.stripFirst ti = some (f, ri))
    (h2 : R.stripFirst tj = some (g, rj)) (h3 : mkAdd ri rj = some s) (h4 : rec s = some s') (h5 : mkMul f s' = some m) :
    ffJ R rec i (n + 1) j ti ts = if ((ts.set i m).eraseIdx j).length = 1 then some (.one m)
      else ffJ R rec i n j m ((ts.set i m).eraseIdx j) := by
  rw [ffJ]
  simp only [hj, ha, hs, h1, h2, h3, h4, h5, Option.bind_eq_bind, Option.bind_some, Bool.false_eq_true, if_false, if_true]

theorem flJ_merge {i n j : ℕ} {ti tj f g ri rj s m : Blk} (hj : ts[j]? = some tj)
    (ha : (ti.isAdd || tj.isAdd) = false) (hs : sameLast R.eq ti tj = some true) (h1 : R.stripLast ti = some (ri, f))
    (h2 : R.stripLast tj = some (rj, g)) (h3 : mkAdd ri rj = some s) (h5 : mkMul s f = some m) :
    flJ R i (n + 1) j ti ts = if ((ts.set i m).eraseIdx j).length = 1 then some (.one m)
      else flJ R i n j m ((ts.set i m).eraseIdx j) := by
  rw [flJ]
  simp only [hj, ha, hs, h1, h2, h3, h5, Option.bind_eq_bind, Option.bind_some, Bool.false_eq_true, if_false, if_true]

theorem noPair_adds {same : Blk → Blk → Option Bool} (x : Blk) : ∀ {l : List Blk}, (∀ t ∈ l, t.isAdd = true) →
    noPair same x l = some ()
  | [], _ => rfl
  | t :: l, h => by
    rw [noPair, h t (by simp), Bool.or_true, if_pos rfl]
    exact noPair_adds x fun u hu => h u (by simp [hu])

theorem noPairs_pair {same : Blk → Blk → Option Bool} {x y : Blk} (h : (x.isAdd || y.isAdd) = true) :
    noPairs same [x, y] = some () := by
  simp only [noPairs, noPair, h, if_true, Option.bind_eq_bind, Option.bind_some]

theorem factorFirst_one {n : ℕ} {neg : Bool} {r c : Dim} {ti x y : Blk} {neg' cm' : Bool} {r' c' : Dim} (h0 : ts[0]? = some ti)
    (h : ffJ R (factorFirst R (n + 1)) 0 (n + 1) 1 ti ts = some (.one (.mul neg' cm' r' c' [x, y]))) (hy : y.isAdd = true) :
    factorFirst R (n + 2) (.add neg r c ts) = some (.mul neg' cm' r' c' [x, y]) := by
  rw [factorFirst]
  simp only [ffI, h0, h, Option.bind_eq_bind, Option.bind_some, mulTerms, List.tail_cons]
  rw [noPair_adds _ (by simpa using hy)]
  simp [noPairs, noPair]

theorem factorLast_one {n : ℕ} {neg : Bool} {r c : Dim} {ti x : Blk} (h0 : ts[0]? = some ti)
    (h : flJ R 0 (n + 1) 1 ti ts = some (.one x)) : factorLast R (n + 1) (.add neg r c ts) = some x := by
  rw [factorLast]
  simp only [flI, h0, h, Option.bind_eq_bind, Option.bind_some]

theorem factorLast_pair {n : ℕ} {neg cm : Bool} {r c : Dim} {x y : Blk} (h : (x.isAdd || y.isAdd) = true) :
    factorLast R n (.mul neg cm r c [x, y]) = some (.mul neg cm r c [x, y]) := by
  rw [factorLast]
  · simp only [mulTerms, noPairs_pair h, Option.bind_eq_bind, Option.bind_some]
  · intro _ _ _ _ h
    cases h

theorem factorFirst_pair {n : ℕ} {neg cm : Bool} {r c : Dim} {x y : Blk} (h : (x.isAdd || y.isAdd) = true) :
    factorFirst R (n + 1) (.mul neg cm r c [x, y]) = some (.mul neg cm r c [x, y]) := by
  rw [factorFirst]
  · simp only [mulTerms, noPairs_pair h, Option.bind_eq_bind, Option.bind_some]
  · intro _ _ _ _ h
    cases h

theorem fsJ_merge {rec : Blk → Option Blk} {i n j : ℕ} {neg cm neg' cm' : Bool} {r c r' c' : Dim} {us ws : List Blk}
    {s f g ri rj e e' m : Blk} {md : Bool} (hj : ts[j]? = some (.mul neg' cm' r' c' ws))
    (hs : sameScalar eq (us.filter fun t => t.isScalar) ws = some (some s)) (h1 : stripScalar eq s (.mul neg cm r c us) = some (f, ri))
    (h2 : stripScalar eq s (.mul neg' cm' r' c' ws) = some (g, rj)) (h3 : mkAdd ri rj = some e) (h4 : rec e = some e')
    (h5 : mkMul f e' = some m) (h6 : m.mulTerms.any isMul = false) :
    fsJ eq rec i (n + 1) j (.mul neg cm r c us) ts md = if ((ts.set i m).eraseIdx j).length = 1 then some (.one m, true)
      else fsJ eq rec i n j m ((ts.set i m).eraseIdx j) true := by
  rw [fsJ]
  simp only [hj, hs, h1, h2, h3, h4, h5, h6, Option.bind_eq_bind, Option.bind_some, Bool.false_eq_true, if_false]

theorem fsJ_end {rec : Blk → Option Blk} {i n j : ℕ} {t : Blk} {md : Bool} (hj : ts[j]? = none) :
    fsJ eq rec i (n + 1) j t ts md = some (.sum ts, md) := by
  rw [fsJ, hj]

end Verif.Lemmas.Symb
