import Verif.Lemmas.Json

/-!
# C135: a JSON value survives being written and read

`JSON::Load(j.dump())` is `j`, the reader ends on every text, and what it has read can be written
and read again.
-/

namespace Verif.Props.Json

open Model.Json Spec.Json Lemmas.Json

/-! ## The reader ends -/

/-- More steps do not change what a reader gives. -/
theorem more (n : Nat) :
    (∀ s, next n s ≠ .fuel → next (n + 1) s = next n s) ∧
      (∀ s acc, elems n s acc ≠ .fuel → elems (n + 1) s acc = elems n s acc) ∧
      ∀ s acc, fields n s acc ≠ .fuel → fields (n + 1) s acc = fields n s acc := by
  induction n with
  | zero =>
    refine ⟨fun s h => absurd (by rw [next]) h, fun s a h => absurd (by rw [elems]) h,
      fun s a h => absurd (by rw [fields]) h⟩
  | succ n ih =>
    obtain ⟨ih1, ih2, ih3⟩ := ih
    refine ⟨?_, ?_, ?_⟩
    · intro s h
      rw [next] at h
      rw [next, next]
      cases hw : ws s with
      | none => rfl
      | some t =>
        cases t with
        | nil => rfl
        | cons c r =>
          simp only [hw] at h ⊢
          by_cases h91 : c = 91
          · simp only [h91, if_true] at h ⊢
            cases hr : ws r with
            | none => rfl
            | some r' =>
              simp only [hr] at h ⊢
              split
              · rfl
              · rename_i h93
                simp only [h93, if_false] at h
                exact ih2 _ _ h
          · simp only [h91, if_false] at h ⊢
            by_cases h123 : c = 123
            · simp only [h123, if_true] at h ⊢
              cases hr : ws r with
              | none => rfl
              | some r' =>
                simp only [hr] at h ⊢
                split
                · rfl
                · rename_i h125
                  simp only [h125, if_false] at h
                  exact ih3 _ _ h
            · simp only [h123, if_false]
    · intro s acc h
      rw [elems] at h
      rw [elems, elems]
      have hn : next n s ≠ .fuel := fun hf => by rw [hf] at h; exact h rfl
      rw [ih1 s hn]
      cases hx : next n s with
      | ub => rfl
      | throw => rfl
      | fuel => exact absurd hx hn
      | ok v p =>
        cases p with
        | none => rfl
        | some r =>
          simp only [hx] at h ⊢
          cases hw : ws r with
          | none => rfl
          | some r' =>
            simp only [hw] at h ⊢
            split
            · rename_i h44
              simp only [h44, if_true] at h
              exact ih2 _ _ h
            · rfl
    · intro s acc h
      rw [fields] at h
      rw [fields, fields]
      have hn : next n s ≠ .fuel := fun hf => by rw [hf] at h; exact h rfl
      rw [ih1 s hn]
      cases hx : next n s with
      | ub => rfl
      | throw => rfl
      | fuel => exact absurd hx hn
      | ok key p =>
        cases p with
        | none => rfl
        | some r =>
          simp only [hx] at h ⊢
          cases hw : ws r with
          | none => rfl
          | some r1 =>
            simp only [hw] at h ⊢
            split
            · rename_i h58
              simp only [h58, if_true] at h
              cases hw2 : ws r1.tail with
              | none => rfl
              | some r2 =>
                simp only [hw2] at h ⊢
                have hn2 : next n r2 ≠ .fuel := fun hf => by rw [hf] at h; exact h rfl
                rw [ih1 r2 hn2]
                cases hy : next n r2 with
                | ub => rfl
                | throw => rfl
                | fuel => exact absurd hy hn2
                | ok v p2 =>
                  cases p2 with
                  | none => rfl
                  | some r3 =>
                    simp only [hy] at h ⊢
                    cases hw3 : ws r3 with
                    | none => rfl
                    | some r4 =>
                      simp only [hw3] at h ⊢
                      split
                      · rename_i h44
                        simp only [h44, if_true] at h
                        exact ih3 _ _ h
                      · rfl
            · rfl

theorem next_mono {n m : Nat} (h : n ≤ m) {s : Str} (hf : next n s ≠ .fuel) :
    next m s = next n s := by
  induction m, h using Nat.le_induction with
  | base => rfl
  | succ m _ ih => rw [(more m).1 s (by rw [ih]; exact hf), ih]

theorem range_of {c : Prop} [Decidable c] {m n : Int}
    (h : (if c then none else if -9223372036854775808 ≤ m ∧ m ≤ 9223372036854775807 then some m
      else none) = some n) : -9223372036854775808 ≤ n ∧ n ≤ 9223372036854775807 := by
  by_cases hc : c
  · simp [hc] at h
  · by_cases hm : -9223372036854775808 ≤ m ∧ m ≤ 9223372036854775807
    · rw [if_neg hc, if_pos hm, Option.some.injEq] at h
      rwa [← h]
    · rw [if_neg hc, if_neg hm] at h
      simp at h

theorem stol_range {s : Str} {n : Int} (h : stol s = some n) :
    -9223372036854775808 ≤ n ∧ n ≤ 9223372036854775807 := by
  unfold stol at h
  exact range_of h

theorem finish_length {val e : Str} {x : Int} {rest : Str} {v : Json} {p : Option Str}
    (h : finish val e x rest = .ok v p) : p = some rest ∧ Good v := by
  unfold finish at h
  split at h
  · cases hs : stod val with
    | none => simp [hs] at h
    | some q =>
      simp only [hs, Res.ok.injEq] at h
      obtain ⟨rfl, rfl⟩ := h
      exact ⟨rfl, trivial⟩
  · cases hs : stol val with
    | none => simp [hs] at h
    | some n =>
      simp only [hs] at h
      split at h
      · simp only [Res.ok.injEq] at h
        obtain ⟨rfl, rfl⟩ := h
        refine ⟨rfl, ?_⟩
        exact stol_range hs
      · simp only [Res.ok.injEq] at h
        obtain ⟨rfl, rfl⟩ := h
        exact ⟨rfl, trivial⟩

theorem finish_fuel (val e : Str) (x : Int) (rest : Str) : finish val e x rest ≠ .fuel := by
  unfold finish
  split
  · split <;> simp
  · split
    · simp
    · split <;> simp

theorem dropWhile_length (p : Nat → Bool) (s : Str) : (s.dropWhile p).length ≤ s.length :=
  (List.dropWhile_suffix p).length_le

theorem expo_length {val e s : Str} {v : Json} {p : Option Str} (h : expo val e s = .ok v p) :
    (∀ r, p = some r → r.length ≤ s.length) ∧ Good v := by
  have hl := dropWhile_length digit s
  unfold expo at h
  simp only at h
  cases hd : s.dropWhile digit with
  | nil =>
    simp only [hd, Res.ok.injEq] at h
    obtain ⟨rfl, rfl⟩ := h
    exact ⟨by simp, trivial⟩
  | cons c r =>
    rw [hd] at hl
    simp only [List.length_cons] at hl
    simp only [hd] at h
    cases ht : term c with
    | none => simp [ht] at h
    | some b =>
      cases b
      · simp only [ht, Res.ok.injEq] at h
        obtain ⟨rfl, rfl⟩ := h
        exact ⟨by rintro r' ⟨⟩; omega, trivial⟩
      · simp only [ht] at h
        cases hs : stol (e ++ s.takeWhile digit) with
        | none => simp [hs] at h
        | some x =>
          simp only [hs] at h
          obtain ⟨rfl, hg⟩ := finish_length h
          exact ⟨by rintro r' ⟨⟩; simpa using hl, hg⟩

theorem expo_fuel (val e s : Str) : expo val e s ≠ .fuel := by
  unfold expo
  simp only
  split
  · simp
  · split
    · simp
    · simp
    · split
      · simp
      · exact finish_fuel _ _ _ _

theorem number_length {s : Str} {v : Json} {p : Option Str} (h : number s = .ok v p) :
    (∀ r, p = some r → r.length ≤ s.length) ∧ Good v := by
  have hl := dropWhile_length numCh s
  unfold number at h
  simp only at h
  cases hd : s.dropWhile numCh with
  | nil =>
    simp only [hd, Res.ok.injEq] at h
    obtain ⟨rfl, rfl⟩ := h
    exact ⟨by simp, trivial⟩
  | cons c r =>
    rw [hd] at hl
    simp only [List.length_cons] at hl
    simp only [hd] at h
    split at h
    · cases r with
      | nil => simp at h
      | cons c2 r2 =>
        simp only [List.length_cons] at hl
        simp only at h
        split at h
        · cases r2 with
          | nil => simp at h
          | cons c3 r3 =>
            simp only [List.length_cons] at hl
            obtain ⟨h1, h2⟩ := expo_length h
            exact ⟨fun r' hr => (h1 r' hr).trans (by omega), h2⟩
        · obtain ⟨h1, h2⟩ := expo_length h
          exact ⟨fun r' hr => (h1 r' hr).trans (by omega), h2⟩
    · cases ht : term c with
      | none => simp [ht] at h
      | some b =>
        cases b
        · simp only [ht, Res.ok.injEq] at h
          obtain ⟨rfl, rfl⟩ := h
          exact ⟨by rintro r' ⟨⟩; omega, trivial⟩
        · simp only [ht] at h
          obtain ⟨rfl, hg⟩ := finish_length h
          exact ⟨by rintro r' ⟨⟩; simpa using hl, hg⟩

theorem number_fuel (s : Str) : number s ≠ .fuel := by
  unfold number
  simp only
  split
  · simp
  · split
    · split
      · simp
      · split
        · split
          · simp
          · exact expo_fuel _ _ _
        · exact expo_fuel _ _ _
    · split
      · simp
      · simp
      · exact finish_fuel _ _ _ _

theorem boolean_length {s : Str} {v : Json} {p : Option Str} (h : boolean s = .ok v p) :
    (∀ r, p = some r → r.length ≤ s.length) ∧ Good v := by
  unfold boolean at h
  split at h
  · simp only [Res.ok.injEq] at h
    obtain ⟨rfl, rfl⟩ := h
    exact ⟨by rintro r ⟨⟩; simp, trivial⟩
  · split at h
    · simp only [Res.ok.injEq] at h
      obtain ⟨rfl, rfl⟩ := h
      exact ⟨by rintro r ⟨⟩; simp, trivial⟩
    · simp only [Res.ok.injEq] at h
      obtain ⟨rfl, rfl⟩ := h
      exact ⟨by rintro r ⟨⟩; simp, trivial⟩

theorem nothing_length {s : Str} {v : Json} {p : Option Str} (h : nothing s = .ok v p) :
    (∀ r, p = some r → r.length ≤ s.length) ∧ Good v := by
  unfold nothing at h
  split at h
  · simp only [Res.ok.injEq] at h
    obtain ⟨rfl, rfl⟩ := h
    exact ⟨by rintro r ⟨⟩; simp, trivial⟩
  · simp only [Res.ok.injEq] at h
    obtain ⟨rfl, rfl⟩ := h
    exact ⟨by rintro r ⟨⟩; simp, trivial⟩

theorem good_snoc (acc : Elems) (v : Json) (ha : GoodE acc) (hv : Good v) :
    GoodE (acc.snoc v) := by
  match acc with
  | .nil => exact ⟨hv, trivial⟩
  | .cons w r => exact ⟨ha.1, good_snoc r v ha.2 hv⟩

theorem good_insert (lo : Option Str) (f : Fields) (k : Str) (v : Json) (hf : GoodF lo f)
    (hlo : ∀ x, lo = some x → x < k) (hk : ∃ s, k = escape s) (hv : Good v) :
    GoodF lo (f.insert k v) := by
  match f with
  | .nil => exact ⟨hlo, hk, hv, trivial⟩
  | .cons k' w r =>
    obtain ⟨h1, h2, h3, h4⟩ := hf
    rw [Fields.insert]
    split
    · rename_i hlt
      exact ⟨hlo, hk, hv, by rintro x ⟨⟩; exact hlt, h2, h3, h4⟩
    · split
      · rename_i heq
        subst heq
        exact ⟨h1, hk, hv, h4⟩
      · rename_i hnl hne
        refine ⟨h1, h2, h3, good_insert (some k') r k v h4 ?_ hk hv⟩
        rintro x ⟨⟩
        exact lt_of_le_of_ne (not_lt.1 hnl) (Ne.symm hne)

theorem toStr_escaped (j : Json) : ∃ s, j.toStr = escape s := by
  cases j
  case str s => exact ⟨s, rfl⟩
  all_goals exact ⟨[], rfl⟩

/-- What a reader leaves is no longer than the text, and what it gives is good. -/
theorem reads (n : Nat) :
    (∀ s v p, next n s = .ok v p → (∀ r, p = some r → r.length ≤ s.length) ∧ Good v) ∧
      (∀ s acc v p, GoodE acc → elems n s acc = .ok v p →
        (∀ r, p = some r → r.length ≤ s.length) ∧ Good v) ∧
      ∀ s acc v p, GoodF none acc → fields n s acc = .ok v p →
        (∀ r, p = some r → r.length ≤ s.length) ∧ Good v := by
  induction n with
  | zero =>
    refine ⟨fun s v p h => ?_, fun s a v p _ h => ?_, fun s a v p _ h => ?_⟩
    · simp [next] at h
    · simp [elems] at h
    · simp [fields] at h
  | succ n ih =>
    obtain ⟨ih1, ih2, ih3⟩ := ih
    refine ⟨?_, ?_, ?_⟩
    · intro s v p h
      rw [next] at h
      cases hw : ws s with
      | none => simp [hw] at h
      | some t =>
        have hl := ws_length hw
        cases t with
        | nil =>
          simp only [hw, Res.ok.injEq] at h
          obtain ⟨rfl, rfl⟩ := h
          exact ⟨by rintro r ⟨⟩; simp, trivial⟩
        | cons c r =>
          simp only [hw] at h
          simp only [List.length_cons] at hl
          split at h
          · cases hr : ws r with
            | none => simp [hr] at h
            | some r' =>
              have hl' := ws_length hr
              simp only [hr] at h
              split at h
              · simp only [Res.ok.injEq] at h
                obtain ⟨rfl, rfl⟩ := h
                exact ⟨by rintro r ⟨⟩; simp only [List.length_tail]; omega, trivial⟩
              · obtain ⟨h1, h2⟩ := ih2 _ .nil _ _ trivial h
                exact ⟨fun x hx => (h1 x hx).trans (by omega), h2⟩
          split at h
          · cases hr : ws r with
            | none => simp [hr] at h
            | some r' =>
              have hl' := ws_length hr
              simp only [hr] at h
              split at h
              · simp only [Res.ok.injEq] at h
                obtain ⟨rfl, rfl⟩ := h
                exact ⟨by rintro r ⟨⟩; simp only [List.length_tail]; omega, trivial⟩
              · obtain ⟨h1, h2⟩ := ih3 _ .nil _ _ trivial h
                exact ⟨fun x hx => (h1 x hx).trans (by omega), h2⟩
          split at h
          · obtain ⟨⟨x, rfl⟩, y, rfl, hy⟩ := chars_length _ _ h
            exact ⟨by rintro r' ⟨⟩; omega, trivial⟩
          split at h
          · obtain ⟨h1, h2⟩ := boolean_length h
            exact ⟨fun x hx => (h1 x hx).trans (by simpa using hl), h2⟩
          split at h
          · obtain ⟨h1, h2⟩ := nothing_length h
            exact ⟨fun x hx => (h1 x hx).trans (by simpa using hl), h2⟩
          split at h
          · obtain ⟨h1, h2⟩ := number_length h
            exact ⟨fun x hx => (h1 x hx).trans (by simpa using hl), h2⟩
          · simp only [Res.ok.injEq] at h
            obtain ⟨rfl, rfl⟩ := h
            exact ⟨by rintro r' ⟨⟩; simpa using hl, trivial⟩
    · intro s acc v p ha h
      rw [elems] at h
      cases hx : next n s with
      | ub => simp [hx] at h
      | throw => simp [hx] at h
      | fuel => simp [hx] at h
      | ok w q =>
        obtain ⟨h1, h2⟩ := ih1 _ _ _ hx
        cases q with
        | none => simp [hx] at h
        | some r =>
          have hl := h1 r rfl
          simp only [hx] at h
          cases hw : ws r with
          | none => simp [hw] at h
          | some r' =>
            have hl' := ws_length hw
            simp only [hw] at h
            split at h
            · obtain ⟨h3, h4⟩ := ih2 _ _ _ _ (good_snoc acc w ha h2) h
              exact ⟨fun x hx => (h3 x hx).trans (by simp only [List.length_tail]; omega), h4⟩
            split at h
            · simp only [Res.ok.injEq] at h
              obtain ⟨rfl, rfl⟩ := h
              exact ⟨by rintro r ⟨⟩; simp only [List.length_tail]; omega,
                good_snoc acc w ha h2⟩
            · simp only [Res.ok.injEq] at h
              obtain ⟨rfl, rfl⟩ := h
              exact ⟨by rintro r ⟨⟩; omega, trivial⟩
    · intro s acc v p ha h
      rw [fields] at h
      cases hx : next n s with
      | ub => simp [hx] at h
      | throw => simp [hx] at h
      | fuel => simp [hx] at h
      | ok key q =>
        obtain ⟨h1, -⟩ := ih1 _ _ _ hx
        cases q with
        | none => simp [hx] at h
        | some r =>
          have hl := h1 r rfl
          simp only [hx] at h
          cases hw : ws r with
          | none => simp [hw] at h
          | some r1 =>
            have hl1 := ws_length hw
            simp only [hw] at h
            split at h
            · cases hw2 : ws r1.tail with
              | none => simp [hw2] at h
              | some r2 =>
                have hl2 := ws_length hw2
                simp only [List.length_tail] at hl2
                simp only [hw2] at h
                cases hy : next n r2 with
                | ub => simp [hy] at h
                | throw => simp [hy] at h
                | fuel => simp [hy] at h
                | ok w q2 =>
                  obtain ⟨h3, h4⟩ := ih1 _ _ _ hy
                  cases q2 with
                  | none => simp [hy] at h
                  | some r3 =>
                    have hl3 := h3 r3 rfl
                    simp only [hy] at h
                    have hgi := good_insert none acc key.toStr w ha (by simp)
                      (toStr_escaped key) h4
                    cases hw3 : ws r3 with
                    | none => simp [hw3] at h
                    | some r4 =>
                      have hl4 := ws_length hw3
                      simp only [hw3] at h
                      split at h
                      · obtain ⟨h5, h6⟩ := ih3 _ _ _ _ hgi h
                        exact ⟨fun x hx => (h5 x hx).trans
                          (by simp only [List.length_tail]; omega), h6⟩
                      split at h
                      · simp only [Res.ok.injEq] at h
                        obtain ⟨rfl, rfl⟩ := h
                        exact ⟨by rintro r ⟨⟩; simp only [List.length_tail]; omega, hgi⟩
                      · simp only [Res.ok.injEq] at h
                        obtain ⟨rfl, rfl⟩ := h
                        exact ⟨by rintro r ⟨⟩; omega, hgi⟩
            · simp only [Res.ok.injEq] at h
              obtain ⟨rfl, rfl⟩ := h
              exact ⟨by rintro r ⟨⟩; omega, ha⟩

theorem tail_lt {r : Str} {c : Nat} (h : r.head? = some c) : r.tail.length + 1 = r.length := by
  cases r with
  | nil => simp at h
  | cons x r => simp

theorem ends (n : Nat) :
    (∀ s, 2 * s.length + 1 ≤ n → next n s ≠ .fuel) ∧
      (∀ s acc, 2 * s.length + 2 ≤ n → elems n s acc ≠ .fuel) ∧
      ∀ s acc, 2 * s.length + 2 ≤ n → fields n s acc ≠ .fuel := by
  induction n with
  | zero => exact ⟨fun s h => by omega, fun s a h => by omega, fun s a h => by omega⟩
  | succ n ih =>
    obtain ⟨ih1, ih2, ih3⟩ := ih
    refine ⟨?_, ?_, ?_⟩
    · intro s h
      rw [next]
      cases hw : ws s with
      | none => simp
      | some t =>
        have hl := ws_length hw
        cases t with
        | nil => simp
        | cons c r =>
          simp only [List.length_cons] at hl
          simp only
          split
          · cases hr : ws r with
            | none => simp
            | some r' =>
              have hl' := ws_length hr
              simp only
              split
              · simp
              · exact ih2 _ _ (by omega)
          split
          · cases hr : ws r with
            | none => simp
            | some r' =>
              have hl' := ws_length hr
              simp only
              split
              · simp
              · exact ih3 _ _ (by omega)
          split
          · exact chars_fuel _ _
          split
          · unfold boolean; split
            · simp
            · split <;> simp
          split
          · unfold nothing; split <;> simp
          split
          · exact number_fuel _
          · simp
    · intro s acc h
      rw [elems]
      cases hx : next n s with
      | ub => simp
      | throw => simp
      | fuel => exact absurd hx (ih1 s (by omega))
      | ok w q =>
        cases q with
        | none => simp
        | some r =>
          have hl := ((reads n).1 _ _ _ hx).1 r rfl
          simp only
          cases hw : ws r with
          | none => simp
          | some r' =>
            have hl' := ws_length hw
            simp only
            split
            · rename_i h44
              have := tail_lt h44
              exact ih2 _ _ (by omega)
            split <;> simp
    · intro s acc h
      rw [fields]
      cases hx : next n s with
      | ub => simp
      | throw => simp
      | fuel => exact absurd hx (ih1 s (by omega))
      | ok key q =>
        cases q with
        | none => simp
        | some r =>
          have hl := ((reads n).1 _ _ _ hx).1 r rfl
          simp only
          cases hw : ws r with
          | none => simp
          | some r1 =>
            have hl1 := ws_length hw
            simp only
            split
            · rename_i h58
              have h58' := tail_lt h58
              cases hw2 : ws r1.tail with
              | none => simp
              | some r2 =>
                have hl2 := ws_length hw2
                simp only
                cases hy : next n r2 with
                | ub => simp
                | throw => simp
                | fuel => exact absurd hy (ih1 r2 (by omega))
                | ok w q2 =>
                  cases q2 with
                  | none => simp
                  | some r3 =>
                    have hl3 := ((reads n).1 _ _ _ hy).1 r3 rfl
                    simp only
                    cases hw3 : ws r3 with
                    | none => simp
                    | some r4 =>
                      have hl4 := ws_length hw3
                      simp only
                      split
                      · rename_i h44
                        have := tail_lt h44
                        exact ih3 _ _ (by omega)
                      split <;> simp
            · simp

/-- `JSON::Load` ends on every text: it needs no more steps than twice the length of the text, and
more steps give the same. -/
theorem C135_ends (s : Str) (n : Nat) (h : 2 * s.length + 1 ≤ n) :
    load s ≠ .fuel ∧ next n s = load s := by
  have h0 : load s ≠ .fuel := (ends _).1 s le_rfl
  exact ⟨h0, next_mono h h0⟩

/-- What has been read is in order: every map sorted with keys in escaped form, every number in
range. -/
theorem C135_read (s : Str) (v : Json) (p : Option Str) (h : load s = .ok v p) : Good v :=
  ((reads _).1 _ _ _ h).2

/-! ## Written and read -/

/-- What has to follow a value: a character that ends a number. -/
def Ends (j : Json) (rest : Str) : Prop :=
  IsNumber j → ∃ c r, rest = c :: r ∧ term c = some true

theorem next_number (n : Nat) (s : Str) (c : Nat) (t : Str) (hs : s = c :: t)
    (hc : digit c = true ∨ c = 45) : next (n + 1) s = number s := by
  have hsp : isspace c = some false := by
    rcases hc with hc | rfl
    · simp only [digit, decide_eq_true_eq] at hc
      unfold isspace
      rw [if_pos (by omega)]
      simp only [Option.some.injEq, decide_eq_false_iff_not]; omega
    · decide
  have hne : c ≠ 91 ∧ c ≠ 123 ∧ c ≠ 34 ∧ ¬ (c = 116 ∨ c = 102) ∧ c ≠ 110 := by
    rcases hc with hc | rfl
    · simp only [digit, decide_eq_true_eq] at hc; omega
    · decide
  obtain ⟨h1, h2, h3, h4, h5⟩ := hne
  subst hs
  rw [next, ws_stop hsp]
  simp only [h1, h2, h3, h4, h5, if_false, hc, if_true]

theorem showInt_head (n : Int) : ∃ c t, showInt n = c :: t ∧ (digit c = true ∨ c = 45) := by
  unfold showInt
  split
  · exact ⟨45, _, rfl, Or.inr rfl⟩
  · obtain ⟨c, t, h1, h2⟩ := head_of_digits (dec_ne n.natAbs) (dec_digit n.natAbs)
    exact ⟨c, t, h1, Or.inl h2⟩

theorem showFlt_head (q : ℚ) : ∃ c t, showFlt q = c :: t ∧ (digit c = true ∨ c = 45) := by
  unfold showFlt
  simp only
  split
  · exact ⟨45, _, rfl, Or.inr rfl⟩
  · obtain ⟨c, t, h1, h2⟩ := head_of_digits
      (dec_ne ((nearest (|q| * 1000000)).toNat / 1000000)) (dec_digit _)
    rw [h1]
    exact ⟨c, _, rfl, Or.inl h2⟩

theorem num_space {c : Nat} (h : digit c = true ∨ c = 45) :
    isspace c = some false ∧ c ≠ 93 ∧ c ≠ 125 := by
  rcases h with hc | rfl
  · simp only [digit, decide_eq_true_eq] at hc
    refine ⟨?_, by omega, by omega⟩
    unfold isspace
    rw [if_pos (by omega)]
    simp only [Option.some.injEq, decide_eq_false_iff_not]; omega
  · decide

/-- The text of a value begins with a character that is no space and closes nothing. -/
theorem dump_head (d : Nat) (tab : Str) (j : Json) :
    ∃ c t, dump d tab j = c :: t ∧ isspace c = some false ∧ c ≠ 93 ∧ c ≠ 125 := by
  cases j with
  | null => exact ⟨_, _, rfl, by decide⟩
  | obj fs => exact ⟨123, _, by rw [dump]; rfl, by decide⟩
  | arr es => exact ⟨91, _, by rw [dump]; rfl, by decide⟩
  | str s => exact ⟨34, _, by rw [dump]; rfl, by decide⟩
  | bool b => cases b <;> exact ⟨_, _, rfl, by decide⟩
  | int n =>
    obtain ⟨c, t, h1, h2⟩ := showInt_head n
    exact ⟨c, t, by rw [dump, h1], num_space h2⟩
  | flt q =>
    obtain ⟨c, t, h1, h2⟩ := showFlt_head q
    exact ⟨c, t, by rw [dump, h1], num_space h2⟩

theorem ws_dump (d : Nat) (tab : Str) (j : Json) (rest : Str) :
    ws (dump d tab j ++ rest) = some (dump d tab j ++ rest) := by
  obtain ⟨c, t, h1, h2, -⟩ := dump_head d tab j
  rw [h1, List.cons_append, ws_stop h2]

/-- What follows the value: a comma, or the rest of the elements. -/
theorem elems_sep (d : Nat) (tab : Str) (r : Elems) (rest : Str) :
    (r = .nil ∧ dumpElems d tab false r ++ 93 :: rest = 93 :: rest) ∨
      (∃ v r', r = .cons v r') ∧
        dumpElems d tab false r ++ 93 :: rest =
          44 :: ([32] ++ (dumpElems d tab true r ++ 93 :: rest)) := by
  cases r with
  | nil => left; exact ⟨rfl, by rw [dumpElems]; rfl⟩
  | cons v r => right; exact ⟨⟨v, r, rfl⟩, by simp [dumpElems]⟩

theorem fields_sep (d : Nat) (tab : Str) (r : Fields) (rest : Str) :
    (r = .nil ∧ dumpFields d tab false r ++ 10 :: rest = 10 :: rest) ∨
      (∃ k v r', r = .cons k v r') ∧
        dumpFields d tab false r ++ 10 :: rest =
          44 :: ([10] ++ (dumpFields d tab true r ++ 10 :: rest)) := by
  cases r with
  | nil => left; exact ⟨rfl, by rw [dumpFields]; rfl⟩
  | cons k v r => right; exact ⟨⟨k, v, r, rfl⟩, by simp [dumpFields]⟩

mutual
theorem trip (j : Json) (hj : Good j) (d : Nat) (tab : Str) (ht : Spaces tab) (rest : Str)
    (he : Ends j rest) :
    ∃ N, ∀ n, N ≤ n → next n (dump d tab j ++ rest) = .ok (rounded j) (some rest) := by
  match j, hj, he with
  | .null, _, _ =>
    refine ⟨1, fun n hn => ?_⟩
    obtain ⟨m, rfl⟩ : ∃ m, n = m + 1 := ⟨n - 1, by omega⟩
    rw [next, ws_dump]
    simp [dump, nothing, rounded]
  | .bool b, _, _ =>
    refine ⟨1, fun n hn => ?_⟩
    obtain ⟨m, rfl⟩ : ∃ m, n = m + 1 := ⟨n - 1, by omega⟩
    rw [next, ws_dump]
    cases b <;> simp [dump, boolean, rounded]
  | .str s, _, _ =>
    refine ⟨1, fun n hn => ?_⟩
    obtain ⟨m, rfl⟩ : ∃ m, n = m + 1 := ⟨n - 1, by omega⟩
    rw [next, ws_dump]
    have e : dump d tab (.str s) ++ rest = 34 :: (escape s ++ 34 :: rest) := by simp [dump]
    rw [e]
    have := chars_escape s rest []
    simp only [List.nil_append] at this
    simp [this, rounded]
  | .int k, hj, he =>
    refine ⟨1, fun n hn => ?_⟩
    obtain ⟨m, rfl⟩ : ∃ m, n = m + 1 := ⟨n - 1, by omega⟩
    obtain ⟨c, r, rfl, hc⟩ := he trivial
    obtain ⟨x, t, h1, h2⟩ := showInt_head k
    have e : dump d tab (.int k) = showInt k := by rw [dump]
    rw [e, next_number m _ x (t ++ c :: r) (by rw [h1]; rfl) h2, number_int k hj hc, rounded]
  | .flt q, _, he =>
    refine ⟨1, fun n hn => ?_⟩
    obtain ⟨m, rfl⟩ : ∃ m, n = m + 1 := ⟨n - 1, by omega⟩
    obtain ⟨c, r, rfl, hc⟩ := he trivial
    obtain ⟨x, t, h1, h2⟩ := showFlt_head q
    have e : dump d tab (.flt q) = showFlt q := by rw [dump]
    rw [e, next_number m _ x (t ++ c :: r) (by rw [h1]; rfl) h2, number_flt q hc, rounded]
  | .arr es, hj, _ =>
    match es, hj with
    | .nil, _ =>
      refine ⟨1, fun n hn => ?_⟩
      obtain ⟨m, rfl⟩ : ∃ m, n = m + 1 := ⟨n - 1, by omega⟩
      rw [next, ws_dump]
      have e : dump d tab (.arr .nil) ++ rest = 91 :: 93 :: rest := by simp [dump, dumpElems]
      rw [e]
      have hw : ws (93 :: rest) = some (93 :: rest) := ws_stop (by decide) _
      simp [hw, rounded, roundedE]
    | .cons v r, hj =>
      obtain ⟨N, hN⟩ := tripE (.cons v r) hj d tab ht rest .nil v r rfl
      refine ⟨N + 1, fun n hn => ?_⟩
      obtain ⟨m, rfl⟩ : ∃ m, n = m + 1 := ⟨n - 1, by omega⟩
      rw [next, ws_dump]
      have e : dump d tab (.arr (.cons v r)) ++ rest =
          91 :: (dumpElems d tab true (.cons v r) ++ 93 :: rest) := by simp [dump]
      obtain ⟨c, t, h1, h2, h3, -⟩ := dump_head (d + 1) tab v
      have e2 : dumpElems d tab true (.cons v r) ++ 93 :: rest =
          c :: (t ++ dumpElems d tab false r ++ 93 :: rest) := by
        simp [dumpElems, h1]
      have hw : ws (dumpElems d tab true (.cons v r) ++ 93 :: rest) =
          some (dumpElems d tab true (.cons v r) ++ 93 :: rest) := by
        rw [e2, ws_stop h2]
      have hh : (dumpElems d tab true (.cons v r) ++ 93 :: rest).head? ≠ some 93 := by
        rw [e2]; simpa using h3
      rw [e]
      simp only [if_true, hw, hh, if_false]
      rw [hN m (by omega), rounded]
      rfl
  | .obj fs, hj, _ =>
    match fs, hj with
    | .nil, _ =>
      refine ⟨1, fun n hn => ?_⟩
      obtain ⟨m, rfl⟩ : ∃ m, n = m + 1 := ⟨n - 1, by omega⟩
      rw [next, ws_dump]
      have e : dump d tab (.obj .nil) ++ rest =
          123 :: (([10, 10] ++ (pad d tab).drop 2) ++ 125 :: rest) := by simp [dump, dumpFields]
      rw [e]
      have hw : ws (([10, 10] ++ (pad d tab).drop 2) ++ 125 :: rest) = some (125 :: rest) := by
        rw [ws_pad (spaces_append (by intro c hc; simp at hc; subst hc; decide)
          (spaces_drop (spaces_pad ht d) 2)), ws_stop (by decide)]
      simp only [show (123 : Nat) ≠ 91 by decide, if_false, if_true, hw, List.head?_cons,
        List.tail_cons, rounded, roundedF]
    | .cons k v r, hj =>
      obtain ⟨N, hN⟩ := tripF (.cons k v r) none hj d tab ht rest .nil k v r rfl trivial
      refine ⟨N + 1, fun n hn => ?_⟩
      obtain ⟨m, rfl⟩ : ∃ m, n = m + 1 := ⟨n - 1, by omega⟩
      rw [next, ws_dump]
      have e : dump d tab (.obj (.cons k v r)) ++ rest =
          123 :: ([10] ++ (dumpFields d tab true (.cons k v r) ++
            10 :: ((pad d tab).drop 2 ++ 125 :: rest))) := by simp [dump]
      have e2 : dumpFields d tab true (.cons k v r) ++
            10 :: ((pad d tab).drop 2 ++ 125 :: rest) =
          pad d tab ++ 34 :: (k ++ [34, 32, 58, 32] ++ dump (d + 1) tab v ++
            dumpFields d tab false r ++ 10 :: ((pad d tab).drop 2 ++ 125 :: rest)) := by
        simp [dumpFields]
      have hN' := hN m (by omega)
      rw [e2, fields_pad (spaces_pad ht d)] at hN'
      rw [e, e2]
      have h10 : Spaces [10] := by intro c hc; simp at hc; subst hc; decide
      have h34 : ∀ x : Str, ws (34 :: x) = some (34 :: x) := fun x => ws_stop (by decide) x
      simp only [show (123 : Nat) ≠ 91 by decide, if_false, if_true, ws_pad h10,
        ws_pad (spaces_pad ht d), h34, List.head?_cons, Option.some.injEq,
        show (34 : Nat) ≠ 125 by decide]
      rw [hN', rounded]
      rfl
theorem tripE (es : Elems) (hes : GoodE es) (d : Nat) (tab : Str) (ht : Spaces tab) (rest : Str)
    (acc : Elems) (v : Json) (r : Elems) (hvr : es = .cons v r) :
    ∃ N, ∀ n, N ≤ n → elems n (dumpElems d tab true es ++ 93 :: rest) acc =
      .ok (.arr (appE acc (roundedE es))) (some rest) := by
  match es, hes, hvr with
  | .cons v' r', hes, hvr =>
    obtain ⟨hv, hr⟩ := hes
    have e : dumpElems d tab true (.cons v' r') ++ 93 :: rest =
        dump (d + 1) tab v' ++ (dumpElems d tab false r' ++ 93 :: rest) := by
      simp [dumpElems]
    rcases elems_sep d tab r' rest with ⟨rfl, hs⟩ | ⟨⟨v2, r2, h2⟩, hs⟩
    · obtain ⟨N, hN⟩ := trip v' hv (d + 1) tab ht (93 :: rest)
        (fun _ => ⟨93, rest, rfl, by decide⟩)
      refine ⟨N + 1, fun n hn => ?_⟩
      obtain ⟨m, rfl⟩ : ∃ m, n = m + 1 := ⟨n - 1, by omega⟩
      rw [e, hs, elems, hN m (by omega)]
      have hw : ws (93 :: rest) = some (93 :: rest) := ws_stop (by decide) _
      have ha : acc.snoc (rounded v') = appE acc (.cons (rounded v') .nil) := by
        rw [← appE_snoc, appE_nil]
      simp [hw, roundedE, ha]
    · obtain ⟨N, hN⟩ := trip v' hv (d + 1) tab ht
        (44 :: ([32] ++ (dumpElems d tab true r' ++ 93 :: rest)))
        (fun _ => ⟨44, _, rfl, by decide⟩)
      obtain ⟨M, hM⟩ := tripE r' hr d tab ht rest (acc.snoc (rounded v')) v2 r2 h2
      refine ⟨N + M + 1, fun n hn => ?_⟩
      obtain ⟨m, rfl⟩ : ∃ m, n = m + 1 := ⟨n - 1, by omega⟩
      rw [e, hs, elems, hN m (by omega)]
      have hw : ∀ x : Str, ws (44 :: x) = some (44 :: x) := fun x => ws_stop (by decide) _
      have h32 : Spaces [32] := by intro c hc; simp at hc; subst hc; decide
      simp only [hw, List.head?_cons, if_true, List.tail_cons]
      rw [elems_pad h32, hM m (by omega), appE_snoc, roundedE]
theorem tripF (fs : Fields) (lo : Option Str) (hfs : GoodF lo fs) (d : Nat) (tab : Str)
    (ht : Spaces tab) (rest : Str) (acc : Fields) (k : Str) (v : Json) (r : Fields)
    (hkvr : fs = .cons k v r) (hb : Below acc k) :
    ∃ N, ∀ n, N ≤ n → fields n (dumpFields d tab true fs ++
        10 :: ((pad d tab).drop 2 ++ 125 :: rest)) acc =
      .ok (.obj (appF acc (roundedF fs))) (some rest) := by
  match fs, hfs, hkvr with
  | .cons k' v' r', hfs, hkvr =>
    obtain ⟨-, ⟨s, hs⟩, hv, hr⟩ := hfs
    obtain rfl : k' = k := by injection hkvr
    have e : dumpFields d tab true (.cons k' v' r') ++
          10 :: ((pad d tab).drop 2 ++ 125 :: rest) =
        pad d tab ++ 34 :: (escape s ++ 34 :: 32 :: 58 :: ([32] ++ (dump (d + 1) tab v' ++
          (dumpFields d tab false r' ++ 10 :: ((pad d tab).drop 2 ++ 125 :: rest))))) := by
      simp [dumpFields, hs]
    -- the key
    have hkey : ∀ m x, next (m + 1) (34 :: (escape s ++ 34 :: x)) = .ok (.str s) (some x) := by
      intro m x
      rw [next, ws_stop (by decide)]
      have := chars_escape s x []
      simp only [List.nil_append] at this
      simp [this]
    have hks : (Json.str s).toStr = k' := by rw [hs]; rfl
    have h32 : Spaces [32] := by intro c hc; simp at hc; subst hc; decide
    have hcol : ∀ x : Str, ws (32 :: 58 :: x) = some (58 :: x) := by
      intro x
      rw [ws_space (by decide), ws_stop (by decide)]
    have hins : acc.insert k' (rounded v') = appF acc (.cons k' (rounded v') .nil) :=
      insert_below acc k' _ hb
    rcases fields_sep d tab r' ((pad d tab).drop 2 ++ 125 :: rest) with
      ⟨rfl, hsep⟩ | ⟨⟨k2, v2, r2, h2⟩, hsep⟩
    · obtain ⟨N, hN⟩ := trip v' hv (d + 1) tab ht (10 :: ((pad d tab).drop 2 ++ 125 :: rest))
        (fun _ => ⟨10, _, rfl, by decide⟩)
      refine ⟨N + 2, fun n hn => ?_⟩
      obtain ⟨m, rfl⟩ : ∃ m, n = m + 2 := ⟨n - 2, by omega⟩
      rw [e, hsep, fields_pad (spaces_pad ht d), fields, hkey]
      have hw : ws (10 :: ((pad d tab).drop 2 ++ 125 :: rest)) = some (125 :: rest) := by
        rw [ws_space (by decide), ws_pad (spaces_drop (spaces_pad ht d) 2),
          ws_stop (by decide)]
      simp only [hcol, List.head?_cons, if_true, List.tail_cons, ws_pad h32, ws_dump,
        hN (m + 1) (by omega), hw, Option.some.injEq, show (125 : Nat) ≠ 44 by decide, if_false,
        hks, hins, roundedF]
    · obtain ⟨N, hN⟩ := trip v' hv (d + 1) tab ht
        (44 :: ([10] ++ (dumpFields d tab true r' ++
          10 :: ((pad d tab).drop 2 ++ 125 :: rest))))
        (fun _ => ⟨44, _, rfl, by decide⟩)
      have hlt : k' < k2 := by
        rw [h2] at hr
        exact hr.1 k' rfl
      obtain ⟨M, hM⟩ := tripF r' (some k') hr d tab ht rest
        (appF acc (.cons k' (rounded v') .nil)) k2 v2 r2 h2
        (below_app _ _ _ (below_trans acc hb hlt) ⟨hlt, trivial⟩)
      refine ⟨N + M + 2, fun n hn => ?_⟩
      obtain ⟨m, rfl⟩ : ∃ m, n = m + 2 := ⟨n - 2, by omega⟩
      rw [e, hsep, fields_pad (spaces_pad ht d), fields, hkey]
      have hw : ∀ x : Str, ws (44 :: x) = some (44 :: x) := fun x => ws_stop (by decide) _
      have h10 : Spaces [10] := by intro c hc; simp at hc; subst hc; decide
      simp only [hcol, List.head?_cons, if_true, List.tail_cons, ws_pad h32, ws_dump,
        hN (m + 1) (by omega), hw, hks, hins]
      rw [fields_pad h10, hM (m + 1) (by omega), appF_assoc, roundedF]
      rfl
end

/-- A value that is no number, written with any depth and any white space for the tabulator, is
read back with its `double`s rounded to six digits after the point; what follows in the text is
left. -/
theorem C135_round_trip_partial (j : Json) (hj : Good j) (hn : ¬ IsNumber j) (d : Nat) (tab : Str)
    (ht : Spaces tab) (rest : Str) :
    load (dump d tab j ++ rest) = .ok (rounded j) (some rest) := by
  obtain ⟨N, hN⟩ := trip j hj d tab ht rest (fun h => absurd h hn)
  have h1 := (C135_ends (dump d tab j ++ rest)
    (max N (2 * (dump d tab j ++ rest).length + 1)) (le_max_right _ _)).2
  rw [← h1, hN _ (le_max_left _ _)]

/-! ## What is lost -/

theorem nearest_near (q : ℚ) : |(nearest q : ℚ) - q| ≤ 1 / 2 := by
  have h1 := Int.floor_le q
  have h2 := Int.lt_floor_add_one q
  unfold nearest
  rw [abs_le]
  split
  · constructor <;> linarith
  · split
    · push_cast; constructor <;> linarith
    · split
      · constructor <;> linarith
      · push_cast; constructor <;> linarith

theorem nearest_int (k : Int) : nearest k = k := by
  simp [nearest]

/-- Six digits: a whole number of millionths, the error at most half a millionth, and a number of
millionths is kept. -/
theorem C135_six (q : ℚ) : |round6 q - q| ≤ 1 / 2000000 ∧ (∃ k : Int, round6 q = k / 1000000) ∧
    ((∃ k : Int, q = k / 1000000) → round6 q = q) := by
  have hn := nearest_near (|q| * 1000000)
  have h1 : |round6 q - q| ≤ 1 / 2000000 := by
    rw [abs_le] at hn ⊢
    unfold round6
    split
    · rename_i h
      rw [abs_of_neg h] at hn ⊢
      constructor <;> linarith
    · rename_i h
      rw [abs_of_nonneg (not_lt.1 h)] at hn ⊢
      constructor <;> linarith
  have h2 : ∃ k : Int, round6 q = k / 1000000 := by
    unfold round6
    split
    · exact ⟨-nearest (|q| * 1000000), by push_cast; ring⟩
    · exact ⟨nearest (|q| * 1000000), rfl⟩
  refine ⟨h1, h2, ?_⟩
  rintro ⟨k, hk⟩
  obtain ⟨m, hm⟩ := h2
  rw [hm, hk] at h1
  have h3 : |((m - k : Int) : ℚ)| ≤ 1 / 2 := by
    have e : (m : ℚ) / 1000000 - k / 1000000 = ((m - k : Int) : ℚ) / 1000000 := by
      push_cast; ring
    rw [e, abs_div, abs_of_pos (by norm_num : (0 : ℚ) < 1000000),
      div_le_iff₀ (by norm_num)] at h1
    linarith
  have h4 : |m - k| < 1 := by
    have : (|m - k| : ℚ) < 1 := by
      push_cast at h3; linarith
    exact_mod_cast this
  have h5 : m = k := by
    have := abs_lt.1 h4
    omega
  rw [hm, hk, h5]

mutual
theorem rounded_exact (j : Json) : Exact (rounded j) := by
  match j with
  | .null => trivial
  | .str _ => trivial
  | .int _ => trivial
  | .bool _ => trivial
  | .flt q => exact (C135_six q).2.1
  | .arr es => exact roundedE_exact es
  | .obj fs => exact roundedF_exact fs
theorem roundedE_exact (es : Elems) : ExactE (roundedE es) := by
  match es with
  | .nil => trivial
  | .cons v r => exact ⟨rounded_exact v, roundedE_exact r⟩
theorem roundedF_exact (fs : Fields) : ExactF (roundedF fs) := by
  match fs with
  | .nil => trivial
  | .cons _ v r => exact ⟨rounded_exact v, roundedF_exact r⟩
end

mutual
theorem exact_rounded (j : Json) (h : Exact j) : rounded j = j := by
  match j, h with
  | .null, _ => rfl
  | .str _, _ => rfl
  | .int _, _ => rfl
  | .bool _, _ => rfl
  | .flt q, h => rw [rounded, (C135_six q).2.2 h]
  | .arr es, h => rw [rounded, exact_roundedE es h]
  | .obj fs, h => rw [rounded, exact_roundedF fs h]
theorem exact_roundedE (es : Elems) (h : ExactE es) : roundedE es = es := by
  match es, h with
  | .nil, _ => rfl
  | .cons v r, h => rw [roundedE, exact_rounded v h.1, exact_roundedE r h.2]
theorem exact_roundedF (fs : Fields) (h : ExactF fs) : roundedF fs = fs := by
  match fs, h with
  | .nil, _ => rfl
  | .cons _ v r, h => rw [roundedF, exact_rounded v h.1, exact_roundedF r h.2]
end

mutual
theorem good_rounded (j : Json) (h : Good j) : Good (rounded j) := by
  match j, h with
  | .null, _ => trivial
  | .str _, _ => trivial
  | .int _, h => exact h
  | .bool _, _ => trivial
  | .flt q, _ => trivial
  | .arr es, h => exact good_roundedE es h
  | .obj fs, h => exact good_roundedF none fs h
theorem good_roundedE (es : Elems) (h : GoodE es) : GoodE (roundedE es) := by
  match es, h with
  | .nil, _ => trivial
  | .cons v r, h => exact ⟨good_rounded v h.1, good_roundedE r h.2⟩
theorem good_roundedF (lo : Option Str) (fs : Fields) (h : GoodF lo fs) :
    GoodF lo (roundedF fs) := by
  match fs, h with
  | .nil, _ => trivial
  | .cons k v r, h => exact ⟨h.1, h.2.1, good_rounded v h.2.2.1, good_roundedF (some k) r h.2.2.2⟩
end

theorem rounded_number (j : Json) : IsNumber (rounded j) ↔ IsNumber j := by
  cases j <;> simp [rounded, IsNumber]

/-- A value whose `double`s have six digits after the point comes back as it was, to the end of
the text. -/
theorem C135_exact_partial (j : Json) (hj : Good j) (hn : ¬ IsNumber j) (he : Exact j) :
    load (dump 1 [32, 32] j) = .ok j (some []) := by
  have ht : Spaces [32, 32] := by intro c hc; simp at hc; subst hc; decide
  have := C135_round_trip_partial j hj hn 1 [32, 32] ht []
  rwa [List.append_nil, exact_rounded j he] at this

/-- Whatever has been read from whatever text, if it is no number, is read again as itself but for
the rounding, and from then on exactly. -/
theorem C135_again (s : Str) (v : Json) (p : Option Str) (h : load s = .ok v p)
    (hn : ¬ IsNumber v) :
    load (dump 1 [32, 32] v) = .ok (rounded v) (some []) ∧
      load (dump 1 [32, 32] (rounded v)) = .ok (rounded v) (some []) := by
  have ht : Spaces [32, 32] := by intro c hc; simp at hc; subst hc; decide
  have hg := C135_read s v p h
  refine ⟨?_, C135_exact_partial _ (good_rounded v hg) (fun h => hn ((rounded_number v).1 h))
    (rounded_exact v)⟩
  have := C135_round_trip_partial v hg hn 1 [32, 32] ht []
  rwa [List.append_nil] at this

/-- `{"a" : [1, -2.5, "x\"y"], "b\n" : {}}`. -/
def sample : Json :=
  .obj (.cons [97] (.arr (.cons (.int 1) (.cons (.flt (-5 / 2)) (.cons (.str [120, 34, 121]) .nil))))
    (.cons [98, 92, 110] (.obj .nil) .nil))

example : Good sample ∧ ¬ IsNumber sample ∧ Exact sample := by
  refine ⟨?_, fun h => h, ?_⟩
  · refine ⟨by simp, ⟨[97], by decide⟩, ⟨⟨by norm_num, by norm_num⟩, trivial, trivial, trivial⟩,
      ?_, ⟨[98, 10], by decide⟩, trivial, trivial⟩
    rintro x ⟨⟩
    decide
  · exact ⟨⟨trivial, ⟨-2500000, by norm_num⟩, trivial, trivial⟩, trivial, trivial⟩

/-! ## What is violated -/

/-- A number alone is not read back: the reader wants a character behind it, and gives `null`. -/
theorem C135_number_violated (j : Json) (hn : IsNumber j) (d : Nat) (tab : Str) :
    load (dump d tab j) = .ok .null none := by
  have key : ∀ s : Str, (∀ c ∈ s, numCh c = true) → number s = .ok .null none := by
    intro s hs
    have : s.dropWhile numCh = [] := by
      have := List.dropWhile_append_of_pos (l₂ := []) hs
      simpa using this
    unfold number
    simp only [this]
  cases j with
  | int n =>
    obtain ⟨c, t, h1, h2⟩ := showInt_head n
    rw [dump, load, next_number _ _ c t h1 h2, key _ (showInt_num n)]
  | flt q =>
    obtain ⟨c, t, h1, h2⟩ := showFlt_head q
    rw [dump, load, next_number _ _ c t h1 h2, key _ (showFlt_num q)]
  | null => exact absurd hn (fun h => h)
  | bool b => exact absurd hn (fun h => h)
  | str s => exact absurd hn (fun h => h)
  | arr es => exact absurd hn (fun h => h)
  | obj fs => exact absurd hn (fun h => h)

/-- Every number smaller than half a millionth is read back as zero. -/
theorem C135_small_violated (q : ℚ) (h : |q| < 1 / 2000000) :
    load (dump 1 [32, 32] (.arr (.cons (.flt q) .nil))) =
      .ok (.arr (.cons (.flt 0) .nil)) (some []) := by
  have ht : Spaces [32, 32] := by intro c hc; simp at hc; subst hc; decide
  have := C135_round_trip_partial (.arr (.cons (.flt q) .nil)) ⟨trivial, trivial⟩ (fun h => h) 1
    [32, 32] ht []
  rw [List.append_nil] at this
  rw [this, rounded, roundedE, roundedE, rounded]
  have hf : ⌊|q| * 1000000⌋ = 0 := by
    rw [Int.floor_eq_zero_iff]
    exact ⟨by positivity, by linarith⟩
  have h0 : nearest (|q| * 1000000) = 0 := by
    unfold nearest
    rw [hf, if_pos (by push_cast; linarith)]
  have : round6 q = 0 := by simp [round6, h0]
  rw [this]

example : |(1 / 10000000 : ℚ)| < 1 / 2000000 := by norm_num [abs_of_pos]

/-- A key with a quote, set by `operator[]`, is written unescaped: the object is read back
without it. -/
theorem C135_key_violated :
    load (dump 1 [32, 32] (.obj (.cons [97, 34, 98] (.bool true) .nil))) =
      .ok (.obj .nil) (some [98, 34, 32, 58, 32, 116, 114, 117, 101, 10, 125]) := by
  rfl

/-- `"\u0041"` is read as the six characters, not as the letter. -/
theorem C135_unicode_violated (a b c d : Nat) (h : hex a && hex b && hex c && hex d) :
    load [34, 92, 117, a, b, c, d, 34] = .ok (.str [92, 117, a, b, c, d]) (some []) := by
  rw [load, next, ws_stop (by decide)]
  simp only [show (34 : Nat) ≠ 91 by decide, show (34 : Nat) ≠ 123 by decide, if_false, if_true]
  rw [chars, if_pos h]
  simp [chars]

/-- A string without its closing quote is read behind the end of the text. -/
theorem C135_open_violated (s : Str) (h : ∀ c ∈ s, c ≠ 34 ∧ c ≠ 92) : load (34 :: s) = .ub := by
  have key : ∀ (s val : Str), (∀ c ∈ s, c ≠ 34 ∧ c ≠ 92) → chars s val = .ub := by
    intro s
    induction s with
    | nil => intro val _; rw [chars]
    | cons c s ih =>
      intro val hs
      obtain ⟨h1, h2⟩ := hs c List.mem_cons_self
      rw [chars_plain c h1 h2]
      exact ih _ fun x hx => hs x (List.mem_cons_of_mem _ hx)
  rw [load, next, ws_stop (by decide)]
  simp only [show (34 : Nat) ≠ 91 by decide, show (34 : Nat) ≠ 123 by decide, if_false, if_true]
  exact key s [] h

/-- Texts that are not JSON are read as values: `[,]`, `[1 2]`, `{]`, and the empty text; `[5` is
read behind its end. -/
theorem C135_malformed_violated :
    load [91, 44, 93] = .ok (.arr (.cons .null (.cons .null .nil))) (some []) ∧
      load [91, 49, 32, 50, 93] = .ok (.arr .nil) (some [50, 93]) ∧
      load [123, 93] = .ok (.obj .nil) (some [93]) ∧ load [] = .ok .null (some []) ∧
      load [91, 53] = .ub :=
  ⟨rfl, rfl, rfl, rfl, rfl⟩

/-! ## Exponents -/

theorem number_e {m : Str} (hm : ∀ c ∈ m, digit c = true) (r : Str) :
    number (m ++ 101 :: r) =
      match r with
      | [] => .ub
      | c2 :: r2 =>
        if c2 = 45 then
          match r2 with
          | [] => .ub
          | _ :: r3 => expo m [45] r3
        else expo m [] r2 := by
  have hm' : ∀ c ∈ m, numCh c = true := fun c hc => numCh_of_digit (hm c hc)
  have h101 : numCh 101 = false := by decide
  have ht : (m ++ 101 :: r).takeWhile numCh = m := by
    rw [List.takeWhile_append_of_pos hm', List.takeWhile_cons_of_neg (by simp [h101])]; simp
  have hd : (m ++ 101 :: r).dropWhile numCh = 101 :: r := by
    rw [List.dropWhile_append_of_pos hm', List.dropWhile_cons_of_neg (by simp [h101])]
  unfold number
  simp only [ht, hd, or_true, if_true]
  rfl

theorem stol_digits {d : Str} (hd : ∀ c ∈ d, digit c = true) (hne : d ≠ [])
    (hr : value d ≤ 9223372036854775807) : stol d = some (value d : Int) := by
  obtain ⟨c, t, hc, hdig⟩ := head_of_digits hne hd
  have h45 : d.head? ≠ some 45 := by
    rw [hc]; simp only [List.head?_cons, ne_eq, Option.some.injEq]
    rintro rfl; simp [digit] at hdig
  unfold stol
  simp only [h45, if_false, takeDigits hd, hne]
  rw [if_pos ⟨by omega, by exact_mod_cast hr⟩]

theorem stol_minus {d : Str} (hd : ∀ c ∈ d, digit c = true) (hne : d ≠ [])
    (hr : value d ≤ 9223372036854775807) : stol (45 :: d) = some (-(value d : Int)) := by
  unfold stol
  simp only [List.head?_cons, if_true, List.tail_cons, takeDigits hd, hne, if_false]
  rw [if_pos ⟨by have : (value d : Int) ≤ 9223372036854775807 := by exact_mod_cast hr
                 omega, by omega⟩]

theorem expo_digits {m sign e : Str} (hm : ∀ c ∈ m, digit c = true) (hmn : m ≠ [])
    (hmr : value m ≤ 9223372036854775807) (he : ∀ c ∈ e, digit c = true) {c : Nat}
    (hc : term c = some true) (r : Str) (x : Int) (hx : stol (sign ++ e) = some x)
    (hne : sign ++ e ≠ []) :
    expo m sign (e ++ c :: r) = .ok (.flt ((value m : ℚ) * (10 : ℚ) ^ x)) (some (c :: r)) := by
  have hcd : digit c = false := by
    have := (term_cases hc).1
    cases hdc : digit c with
    | false => rfl
    | true => rw [numCh_of_digit hdc] at this; simp at this
  have ht : (e ++ c :: r).takeWhile digit = e := by
    rw [List.takeWhile_append_of_pos he, List.takeWhile_cons_of_neg (by simp [hcd])]; simp
  have hd : (e ++ c :: r).dropWhile digit = c :: r := by
    rw [List.dropWhile_append_of_pos he, List.dropWhile_cons_of_neg (by simp [hcd])]
  have hp : m.contains 46 = false := by
    have : 46 ∉ m := fun h => by have := hm 46 h; simp [digit] at this
    simpa using this
  unfold expo
  simp only [ht, hd, hc, hx]
  unfold finish
  rw [hp, stol_digits hm hmn hmr]
  simp [hne]

/-- With a plus sign an exponent is read as it should be. -/
theorem C135_exponent_partial (m e : Str) (hm : ∀ c ∈ m, digit c = true) (hmn : m ≠ [])
    (hmr : value m ≤ 9223372036854775807) (he : ∀ c ∈ e, digit c = true) (hen : e ≠ [])
    (her : value e ≤ 9223372036854775807) (c : Nat) (hc : term c = some true) (r : Str) :
    number (m ++ 101 :: 43 :: (e ++ c :: r)) =
      .ok (.flt ((value m : ℚ) * 10 ^ value e)) (some (c :: r)) := by
  rw [number_e hm]
  simp only [show (43 : Nat) ≠ 45 by decide, if_false]
  rw [expo_digits hm hmn hmr he hc r (value e) (by simpa using stol_digits he hen her)
    (by simpa using hen)]
  simp

/-- Without a sign the first digit of the exponent is lost, and with a minus sign the first digit
behind it; an exponent of one digit is an exception. -/
theorem C135_exponent_violated (m e : Str) (x : Nat) (hm : ∀ c ∈ m, digit c = true) (hmn : m ≠ [])
    (hmr : value m ≤ 9223372036854775807) (hx : digit x = true) (he : ∀ c ∈ e, digit c = true)
    (her : value e ≤ 9223372036854775807) (c : Nat) (hc : term c = some true) (r : Str) :
    number (m ++ 101 :: x :: (e ++ c :: r)) =
        (if e = [] then .throw
          else .ok (.flt ((value m : ℚ) * 10 ^ value e)) (some (c :: r))) ∧
      number (m ++ 101 :: 45 :: x :: (e ++ c :: r)) =
        if e = [] then .throw
          else .ok (.flt ((value m : ℚ) / 10 ^ value e)) (some (c :: r)) := by
  have hx45 : x ≠ 45 := by rintro rfl; simp [digit] at hx
  have hcd : digit c = false := by
    have := (term_cases hc).1
    cases hdc : digit c with
    | false => rfl
    | true => rw [numCh_of_digit hdc] at this; simp at this
  have hempty : ∀ sign : Str, stol sign = none → expo m sign (c :: r) = .throw := by
    intro sign hs
    unfold expo
    simp [hcd, hc, hs]
  constructor
  · rw [number_e hm]
    simp only [hx45, if_false]
    by_cases hen : e = []
    · subst hen
      simp only [List.nil_append, if_true]
      exact hempty [] (by decide)
    · rw [if_neg hen, expo_digits hm hmn hmr he hc r (value e)
        (by simpa using stol_digits he hen her) (by simpa using hen)]
      simp
  · rw [number_e hm]
    simp only [if_true]
    by_cases hen : e = []
    · subst hen
      simp only [List.nil_append, if_true]
      exact hempty [45] (by decide)
    · rw [if_neg hen, expo_digits hm hmn hmr he hc r (-(value e : Int))
        (by simpa using stol_minus he hen her) (by simp)]
      simp [zpow_neg, div_eq_mul_inv]

/-- `1e15,` is read as 100000. -/
example : number [49, 101, 49, 53, 44] = .ok (.flt (1 * 10 ^ 5)) (some [44]) := by
  have := (C135_exponent_violated [49] [53] 49 (by decide) (by decide) (by decide) (by decide)
    (by decide) (by decide) 44 (by decide) []).1
  simpa [value] using this

/-- The claim: what is written is read back. -/
def C135_statement : Prop :=
  ∀ j : Json, Good j → load (dump 1 [32, 32] j) = .ok j (some [])

theorem C135_statement_false : ¬ C135_statement := by
  intro h
  have h1 := h (.int 5) ⟨by norm_num, by norm_num⟩
  rw [C135_number_violated (.int 5) trivial] at h1
  simp at h1

end Verif.Props.Json
