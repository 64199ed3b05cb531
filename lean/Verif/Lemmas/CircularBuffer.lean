import Verif.Spec.Deque
/-! Helper lemmas: the ring represents a deque. -/
namespace Verif.CB
variable {α : Type}

/-- The ring `r` of `N` slots holds exactly the list `l`. -/
structure Rep (N : Nat) (r : Ring α) (l : List α) : Prop where
  hN : 2 ≤ N
  big : N < 2 ^ 31
  hhead : r.head < N
  htail : r.tail < N
  len : l.length < N
  pos : r.tail = if r.head + l.length < N then r.head + l.length else r.head + l.length - N
  mem : ∀ i (h : i < l.length),
    r.mem (if r.head + i < N then r.head + i else r.head + i - N) = some l[i]

theorem plus_eq {N v d : Nat} (hN : N < 2 ^ 31) (hv : v < N) (hd : d ≤ N) :
    plus N v d = if v + d < N then v + d else v + d - N := by
  unfold plus
  rw [Nat.mod_eq_of_lt (by omega : v + d < 2 ^ 64)]
  split
  · exact Nat.mod_eq_of_lt (by omega)
  · rw [Nat.mod_eq_sub_mod (by omega)]; exact Nat.mod_eq_of_lt (by omega)

theorem toSizeT_ofNat {n : Nat} (h : n < 2 ^ 64) : toSizeT (n : Int) = n := by
  unfold toSizeT; omega

theorem Rep.size_eq {N} {r : Ring α} {l} (h : Rep N r l) : size N r = l.length := by
  obtain ⟨h1, h2, h3, h4, h5, h6, -⟩ := h
  have : (idx N r r.tail : Int) - (idx N r r.head : Int) = (l.length : Int) := by
    unfold idx; split <;> split at h6 <;> split <;> omega
  unfold size; rw [this]; exact toSizeT_ofNat (by omega)

theorem Rep.empty_iff {N} {r : Ring α} {l} (h : Rep N r l) : empty r = true ↔ l = [] := by
  obtain ⟨h1, h2, h3, h4, h5, h6, -⟩ := h
  unfold empty; rw [beq_iff_eq, ← List.length_eq_zero_iff]
  split at h6 <;> omega

theorem Rep.full_iff {N} {r : Ring α} {l} (h : Rep N r l) :
    full N r = true ↔ l.length = N - 1 := by
  obtain ⟨h1, h2, h3, h4, h5, h6, -⟩ := h
  unfold full; rw [beq_iff_eq, plus_eq h2 h4 (by omega)]
  split at h6 <;> split <;> omega

theorem Rep.at_eq {N} {r : Ring α} {l} (h : Rep N r l) (i : Nat) (hi : i < l.length) :
    at' N r (i : Int) = some l[i] := by
  obtain ⟨h1, h2, h3, h4, h5, h6, h7⟩ := h
  unfold at'; rw [toSizeT_ofNat (by omega), plus_eq h2 h3 (by omega)]; exact h7 i hi

theorem Rep.front_eq {N} {r : Ring α} {l} (h : Rep N r l) (hl : l ≠ []) :
    front r = l.head? := by
  have hi : 0 < l.length := List.length_pos_iff.2 hl
  have := h.mem 0 hi
  have hh := h.hhead
  simp only [Nat.add_zero, hh, if_true] at this
  unfold front; rw [this, List.head?_eq_getElem?, List.getElem?_eq_getElem hi]

theorem Rep.back_eq {N} {r : Ring α} {l} (h : Rep N r l) (hl : l ≠ []) :
    back N r = l.getLast? := by
  have hi : 0 < l.length := List.length_pos_iff.2 hl
  have := h.mem (l.length - 1) (by omega)
  unfold back
  rw [List.getLast?_eq_getElem?, List.getElem?_eq_getElem (by omega), ← this]
  congr 1
  obtain ⟨h1, h2, h3, h4, h5, h6, h7⟩ := h
  unfold minus
  rw [Nat.mod_eq_of_lt (by omega : 1 < N)]
  rcases Nat.lt_or_ge (r.tail) 1 with h0 | h0
  · rw [Nat.mod_eq_of_lt (by omega)]; split at h6 <;> split <;> omega
  · rw [Nat.mod_eq_sub_mod (by omega), Nat.mod_eq_of_lt (by omega)]
    split at h6 <;> split <;> omega

theorem rep_init {N : Nat} (hN : 2 ≤ N) (hb : N < 2 ^ 31) : Rep N (init : Ring α) [] where
  hN := hN
  big := hb
  hhead := by simp [init]; omega
  htail := by simp [init]; omega
  len := by simp; omega
  pos := by simp [init]
  mem := by intro i h; simp at h

theorem destroy_mem (r : Ring α) (p) : (destroy r p).mem = r.mem := by
  unfold destroy; split <;> rfl
theorem destroy_head (r : Ring α) (p) : (destroy r p).head = r.head := by
  unfold destroy; split <;> rfl
theorem destroy_tail (r : Ring α) (p) : (destroy r p).tail = r.tail := by
  unfold destroy; split <;> rfl

theorem Rep.popFront {N} {r : Ring α} {l} (h : Rep N r l) (hl : l ≠ []) :
    Rep N (popFront N r) (l.drop 1) := by
  have hi : 0 < l.length := List.length_pos_iff.2 hl
  obtain ⟨h1, h2, h3, h4, h5, h6, h7⟩ := h
  refine ⟨h1, h2, ?_, ?_, ?_, ?_, ?_⟩
  · simp only [CB.popFront, inc, destroy_head]; split <;> omega
  · simp only [CB.popFront, destroy_tail]; exact h4
  · simp; omega
  · simp only [CB.popFront, inc, destroy_head, destroy_tail, List.length_drop]
    split at h6 <;> split <;> split <;> omega
  · intro i hi'
    simp only [List.length_drop] at hi'
    have := h7 (i + 1) (by omega)
    simp only [CB.popFront, inc, destroy_head, destroy_mem, List.getElem_drop]
    have e : 1 + i = i + 1 := by omega
    simp only [e]
    rw [← this]; congr 1
    split <;> split <;> split <;> omega

theorem Rep.popBack {N} {r : Ring α} {l} (h : Rep N r l) (hl : l ≠ []) :
    Rep N (popBack N r) l.dropLast := by
  have hi : 0 < l.length := List.length_pos_iff.2 hl
  obtain ⟨h1, h2, h3, h4, h5, h6, h7⟩ := h
  refine ⟨h1, h2, ?_, ?_, ?_, ?_, ?_⟩
  · simp only [CB.popBack, destroy_head]; exact h3
  · simp only [CB.popBack, dec, destroy_tail]; split <;> omega
  · simp; omega
  · simp only [CB.popBack, dec, destroy_head, destroy_tail, List.length_dropLast]
    split at h6 <;> split <;> split <;> omega
  · intro i hi'
    simp only [List.length_dropLast] at hi'
    have := h7 i (by omega)
    simp only [CB.popBack, destroy_head, destroy_mem, List.getElem_dropLast]
    exact this

/-- Shared part of `emplace_back` and `push_back`. -/
theorem Rep.storeBack {N} {r r' : Ring α} {l} (h : Rep N r l) (hl : l.length < N - 1) (v : α)
    (hm : r'.mem = fun q => if q = r.tail then some v else r.mem q)
    (hh : r'.head = r.head) (ht : r'.tail = inc N r.tail) : Rep N r' (l ++ [v]) := by
  obtain ⟨h1, h2, h3, h4, h5, h6, h7⟩ := h
  refine ⟨h1, h2, by omega, ?_, ?_, ?_, ?_⟩
  · rw [ht, inc]; split <;> omega
  · simp; omega
  · rw [ht, hh, inc]; simp only [List.length_append, List.length_singleton]
    split at h6 <;> split <;> split <;> omega
  · intro i hi
    simp only [List.length_append, List.length_singleton] at hi
    rw [hm, hh]
    by_cases hil : i < l.length
    · rw [List.getElem_append_left hil, ← h7 i hil]
      simp only
      rw [if_neg]
      split at h6 <;> split <;> omega
    · have : i = l.length := by omega
      subst this
      simp only [h6, if_true]
      simp

/-- Shared part of `emplace_front` and `push_front`. -/
theorem Rep.storeFront {N} {r r' : Ring α} {l} (h : Rep N r l) (hl : l.length < N - 1) (v : α)
    (hh : r'.head = dec N r.head) (ht : r'.tail = r.tail)
    (hm : r'.mem = fun q => if q = dec N r.head then some v else r.mem q) :
    Rep N r' (v :: l) := by
  obtain ⟨h1, h2, h3, h4, h5, h6, h7⟩ := h
  have hd : dec N r.head < N := by unfold dec; split <;> omega
  refine ⟨h1, h2, by omega, by omega, ?_, ?_, ?_⟩
  · simp; omega
  · rw [ht, hh, dec]; simp only [List.length_cons]
    split at h6 <;> split <;> split <;> omega
  · intro i hi
    simp only [List.length_cons] at hi
    rw [hm, hh]
    cases i with
    | zero => simp [hd]
    | succ j =>
      have := h7 j (by omega)
      simp only [List.getElem_cons_succ]
      rw [← this, if_neg]
      · congr 1; unfold dec; split <;> split <;> split <;> omega
      · unfold dec; split <;> split <;> omega

theorem Rep.room_front {N} {r : Ring α} {l} (h : Rep N r l) :
    Rep N (if full N r then CB.popFront N r else r) (if l.length = N - 1 then l.drop 1 else l) ∧
    (if l.length = N - 1 then l.drop 1 else l).length < N - 1 := by
  have hN := h.hN
  have hlen := h.len
  by_cases hf : l.length = N - 1
  · rw [if_pos (h.full_iff.2 hf), if_pos hf]
    refine ⟨h.popFront ?_, ?_⟩
    · intro h0; simp [h0] at hf; omega
    · simp; omega
  · rw [if_neg (fun hh => hf (h.full_iff.1 hh)), if_neg hf]
    exact ⟨h, by omega⟩

theorem Rep.room_back {N} {r : Ring α} {l} (h : Rep N r l) :
    Rep N (if full N r then CB.popBack N r else r) (if l.length = N - 1 then l.dropLast else l) ∧
    (if l.length = N - 1 then l.dropLast else l).length < N - 1 := by
  have hN := h.hN
  have hlen := h.len
  by_cases hf : l.length = N - 1
  · rw [if_pos (h.full_iff.2 hf), if_pos hf]
    refine ⟨h.popBack ?_, ?_⟩
    · intro h0; simp [h0] at hf; omega
    · simp; omega
  · rw [if_neg (fun hh => hf (h.full_iff.1 hh)), if_neg hf]
    exact ⟨h, by omega⟩

theorem Rep.clearLoop {N} (fuel : Nat) {r : Ring α} {l} (h : Rep N r l) (hf : l.length ≤ fuel) :
    Rep N (clearLoop N fuel r) [] := by
  induction fuel generalizing r l with
  | zero =>
    have : l = [] := List.length_eq_zero_iff.1 (by omega)
    subst this; exact h
  | succ n ih =>
    unfold CB.clearLoop
    by_cases he : l = []
    · rw [if_pos (h.empty_iff.2 he)]; subst he; exact h
    · rw [if_neg (fun hh => he (h.empty_iff.1 hh))]
      exact ih (h.popFront he) (by simp; omega)

theorem Rep.step {N} {r : Ring α} {l} (h : Rep N r l) (op : Op α)
    (ha : DequeSpec.allowed l op) : Rep N (step N r op) (DequeSpec.step (N - 1) l op) := by
  cases op with
  | popFront => exact h.popFront ha
  | popBack => exact h.popBack ha
  | clear => exact h.clearLoop N (by have := h.len; omega)
  | emplaceBack v =>
    obtain ⟨h', hl⟩ := h.room_front
    exact h'.storeBack hl v rfl rfl rfl
  | pushBack v =>
    obtain ⟨h', hl⟩ := h.room_front
    exact h'.storeBack hl v rfl rfl rfl
  | emplaceFront v =>
    obtain ⟨h', hl⟩ := h.room_back
    exact h'.storeFront hl v rfl rfl rfl
  | pushFront v =>
    obtain ⟨h', hl⟩ := h.room_back
    exact h'.storeFront hl v rfl rfl rfl

theorem Rep.foldl {N} (ops : List (Op α)) {r : Ring α} {l} (h : Rep N r l)
    (ha : DequeSpec.Legal (N - 1) l ops) :
    Rep N (ops.foldl (CB.step N) r) (ops.foldl (DequeSpec.step (N - 1)) l) := by
  induction ops generalizing r l with
  | nil => exact h
  | cons op ops ih => exact ih (h.step op ha.1) ha.2

theorem Rep.run {N} (hN : 2 ≤ N) (hb : N < 2 ^ 31) (ops : List (Op α))
    (ha : DequeSpec.Legal (N - 1) [] ops) : Rep N (run N ops) (DequeSpec.run (N - 1) ops) :=
  (rep_init hN hb).foldl ops ha

theorem Rep.iterate_from {N} {r : Ring α} {l} (h : Rep N r l) (fuel k : Nat)
    (hk : k ≤ l.length) (hf : l.length - k < fuel) :
    iterate N r fuel (if r.head + k < N then r.head + k else r.head + k - N)
      = (l.drop k).map some := by
  have hN := h.hN
  have hb := h.big
  have h3 := h.hhead
  have h5 := h.len
  have h6 := h.pos
  induction fuel generalizing k with
  | zero => omega
  | succ n ih =>
    unfold iterate
    by_cases hkl : k = l.length
    · subst hkl; rw [if_pos h6.symm]; simp
    · rw [if_neg, h.mem k (by omega), List.drop_eq_getElem_cons (by omega : k < l.length),
        List.map_cons, ← ih (k + 1) (by omega) (by omega)]
      · congr 2; unfold inc; split <;> split <;> split <;> omega
      · split at h6 <;> split <;> omega

theorem Rep.iterate {N} {r : Ring α} {l} (h : Rep N r l) :
    iterate N r N r.head = l.map some := by
  have := h.iterate_from N 0 (by omega) (by have := h.len; omega)
  simpa [h.hhead] using this

/-! Lifetimes -/

/-- Exactly the slots between head and tail hold live objects and nothing went wrong. -/
structure Clean (N : Nat) (r : Ring α) (l : List α) : Prop where
  rep : Rep N r l
  noFault : r.faults = 0
  live : ∀ p, r.live p = true ↔
    ∃ i, i < l.length ∧ p = if r.head + i < N then r.head + i else r.head + i - N

theorem Clean.popFront {N} {r : Ring α} {l} (h : Clean N r l) (hl : l ≠ []) :
    Clean N (popFront N r) (l.drop 1) := by
  have hi : 0 < l.length := List.length_pos_iff.2 hl
  have hlive : r.live r.head = true :=
    (h.live _).2 ⟨0, hi, by simp [h.rep.hhead]⟩
  have h3 := h.rep.hhead
  have h5 := h.rep.len
  have hN := h.rep.hN
  refine ⟨h.rep.popFront hl, ?_, ?_⟩
  · simp [CB.popFront, destroy, hlive, h.noFault]
  · intro p
    have e : ∀ q, (CB.popFront N r).live q = (if q = r.head then false else r.live q) := by
      intro q; simp [CB.popFront, destroy, hlive]
    have e2 : (CB.popFront N r).head = inc N r.head := by
      simp [CB.popFront, destroy_head]
    rw [e, e2]
    by_cases hp : p = r.head
    · subst hp
      simp only [if_true, List.length_drop]
      constructor
      · intro h; exact absurd h (by decide)
      · rintro ⟨i, hi, hp⟩
        exfalso
        unfold inc at hp
        split at hp <;> split at hp <;> omega
    · rw [if_neg hp, h.live]
      simp only [List.length_drop]
      constructor
      · rintro ⟨i, hi, rfl⟩
        refine ⟨i - 1, ?_, ?_⟩
        · have : i ≠ 0 := by rintro rfl; simp [h3] at hp
          omega
        · have : i ≠ 0 := by rintro rfl; simp [h3] at hp
          unfold inc; split <;> split <;> split <;> omega
      · rintro ⟨i, hi, rfl⟩
        refine ⟨i + 1, by omega, ?_⟩
        unfold inc; split <;> split <;> split <;> omega

theorem Clean.room {N} {r : Ring α} {l} (h : Clean N r l) :
    Clean N (if full N r then CB.popFront N r else r) (if l.length = N - 1 then l.drop 1 else l) ∧
    (if l.length = N - 1 then l.drop 1 else l).length < N - 1 := by
  have hN := h.rep.hN
  have hlen := h.rep.len
  by_cases hf : l.length = N - 1
  · rw [if_pos (h.rep.full_iff.2 hf), if_pos hf]
    refine ⟨h.popFront ?_, ?_⟩
    · intro h0; simp [h0] at hf; omega
    · simp; omega
  · rw [if_neg (fun hh => hf (h.rep.full_iff.1 hh)), if_neg hf]
    exact ⟨h, by omega⟩

theorem Clean.emplaceBack {N} {r : Ring α} {l} (h0 : Clean N r l) (v : α) :
    Clean N (emplaceBack N r v) (DequeSpec.pushBack (N - 1) l v) := by
  obtain ⟨h, hl⟩ := h0.room
  have hrep := h0.rep.step (.emplaceBack v) trivial
  revert h hl
  unfold CB.emplaceBack DequeSpec.pushBack
  have hrep' : Rep N (CB.emplaceBack N r v) (DequeSpec.pushBack (N - 1) l v) := hrep
  unfold CB.emplaceBack DequeSpec.pushBack at hrep'
  revert hrep'
  generalize (if full N r = true then CB.popFront N r else r) = r1
  generalize (if l.length = N - 1 then l.drop 1 else l) = l1
  intro hrep' h hl
  have h3 := h.rep.hhead
  have h4 := h.rep.htail
  have h5 := h.rep.len
  have h6 := h.rep.pos
  have hN := h.rep.hN
  have hdead : r1.live r1.tail = false := by
    rw [← Bool.not_eq_true, h.live]
    rintro ⟨i, hi, hp⟩
    split at h6 <;> split at hp <;> omega
  refine ⟨hrep', ?_, ?_⟩
  · simp [construct, hdead, h.noFault]
  · intro p
    simp only [construct, List.length_append, List.length_singleton]
    by_cases hp : p = r1.tail
    · simp only [hp, if_true, true_iff]
      exact ⟨l1.length, by omega, h6⟩
    · rw [if_neg hp, h.live]
      constructor
      · rintro ⟨i, hi, e⟩; exact ⟨i, by omega, e⟩
      · rintro ⟨i, hi, e⟩
        refine ⟨i, ?_, e⟩
        rcases Nat.lt_or_ge i l1.length with h | h
        · exact h
        · have : i = l1.length := by omega
          subst this; exact absurd (e.trans h6.symm) hp

theorem Clean.emplaceFront {N} {r : Ring α} {l} (h : Clean N r l) (v : α)
    (hl : l.length < N - 1) : Clean N (emplaceFront N r v) (v :: l) := by
  have hrep := h.rep.step (.emplaceFront v) trivial
  have hnf : full N r ≠ true := fun hh => by have := h.rep.full_iff.1 hh; omega
  have hrep' : Rep N (CB.emplaceFront N r v) (DequeSpec.pushFront (N - 1) l v) := hrep
  unfold DequeSpec.pushFront at hrep'
  rw [if_neg (by omega)] at hrep'
  have h3 := h.rep.hhead
  have h5 := h.rep.len
  have hN := h.rep.hN
  have hdead : r.live (dec N r.head) = false := by
    rw [← Bool.not_eq_true, h.live]
    rintro ⟨i, hi, hp⟩
    unfold dec at hp
    split at hp <;> split at hp <;> omega
  refine ⟨hrep', ?_, ?_⟩
  · simp [CB.emplaceFront, hnf, construct, hdead, h.noFault]
  · intro p
    have e : (CB.emplaceFront N r v).live p = (if p = dec N r.head then true else r.live p) := by
      simp [CB.emplaceFront, hnf, construct]
    have e2 : (CB.emplaceFront N r v).head = dec N r.head := by
      simp [CB.emplaceFront, hnf, construct]
    rw [e, e2]
    have hd : dec N r.head < N := by unfold dec; split <;> omega
    by_cases hp : p = dec N r.head
    · simp only [hp, if_true, true_iff]
      exact ⟨0, by simp, by simp [hd]⟩
    · rw [if_neg hp, h.live]
      simp only [List.length_cons]
      constructor
      · rintro ⟨i, hi, rfl⟩
        exact ⟨i + 1, by omega, by unfold dec; split <;> split <;> split <;> omega⟩
      · rintro ⟨i, hi, e⟩
        cases i with
        | zero => simp [hd] at e; exact absurd e hp
        | succ j =>
          refine ⟨j, by omega, ?_⟩
          rw [e]; unfold dec; split <;> split <;> split <;> omega

theorem Clean.clearLoop {N} (fuel : Nat) {r : Ring α} {l} (h : Clean N r l)
    (hf : l.length ≤ fuel) : Clean N (CB.clearLoop N fuel r) [] := by
  induction fuel generalizing r l with
  | zero =>
    have : l = [] := List.length_eq_zero_iff.1 (by omega)
    subst this; exact h
  | succ n ih =>
    unfold CB.clearLoop
    by_cases he : l = []
    · rw [if_pos (h.rep.empty_iff.2 he)]; subst he; exact h
    · rw [if_neg (fun hh => he (h.rep.empty_iff.1 hh))]
      exact ih (h.popFront he) (by simp; omega)

theorem clean_init {N : Nat} (hN : 2 ≤ N) (hb : N < 2 ^ 31) : Clean N (init : Ring α) [] :=
  ⟨rep_init hN hb, rfl, by intro p; simp [init]⟩

end Verif.CB
