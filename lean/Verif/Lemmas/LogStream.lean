import Verif.Lemmas.LogMerge
/-!
# Reading a possibly truncated stream
-/
namespace Verif.Log
open Verif.LogSpec

theorem readStamp_eq (r : Reader) : r.readStamp =
    let d := Codec.dec r.file r.next
    ⟨d.2, if d.2.eof then MAX_TIME else d.1⟩ := rfl

theorem stamp_laws : Laws (inferInstance : Codec Stamp) 16 (fun _ x => x) :=
  Lawful.laws (α := Stamp)

theorem readStamp_full (t n : Stamp) (rest : List UInt8) :
    Reader.readStamp ⟨⟨Codec.enc t ++ rest, false, false⟩, n⟩ = ⟨⟨rest, false, false⟩, t⟩ := by
  rw [readStamp_eq]
  have := stamp_laws.rt t n rest
  simp only
  rw [this]
  rfl

theorem readStamp_short (bs : List UInt8) (n : Stamp) (h : bs.length < 16) :
    (Reader.readStamp ⟨⟨bs, false, false⟩, n⟩).next = MAX_TIME := by
  rw [readStamp_eq]
  have := stamp_laws.short bs n h
  simp only
  rw [if_pos this]

theorem readStamp_eof (s : IStream) (n : Stamp) (h : s.eof = true) :
    (Reader.readStamp ⟨s, n⟩).next = MAX_TIME := by
  rw [readStamp_eq]
  have := stamp_laws.keep s n h
  simp only
  rw [if_pos this]

section
variable {δ : Type} [c : Codec δ]

/-- What the reader makes of the record the cut goes through. -/
def tornData (old : δ) (d : δ) (k : Nat) : δ :=
  (Codec.dec (IStream.ofBytes ((Codec.enc d).take (k - 16))) old).1

/-- The torn record, if its stamp is complete. -/
def tornList (old : δ) : Option ((Stamp × δ) × Nat) → List (Stamp × δ)
  | some (r, k) => if 16 ≤ k then [(r.1, tornData old r.2 k)] else []
  | none => []

theorem reads_cut {n : Nat} {u : δ → δ → δ} (hc : Laws c n u) (old : δ) (rs : List (Stamp × δ))
    (ht : ∀ r ∈ rs, InTime r.1) (cut : Nat) (nx : Stamp) :
    Reads (fun r : Reader => r.next) (Reader.get old)
      (Reader.readStamp ⟨IStream.ofBytes ((logFile rs).take cut), nx⟩)
      ((complete cut rs).map (fun r => (r.1, u old r.2)) ++ tornList old (torn cut rs)) := by
  induction rs generalizing cut nx with
  | nil =>
    simp only [logFile, List.flatMap_nil, List.take_nil, complete, torn, tornList, List.map_nil,
      List.append_nil, Reads, IStream.ofBytes]
    exact readStamp_short [] nx (by simp)
  | cons r rs ih =>
    have hl : (Codec.enc r.1).length = 16 := stamp_laws.len r.1
    have hf : logFile (r :: rs) = Codec.enc r.1 ++ (Codec.enc r.2 ++ logFile rs) := by
      simp [logFile, logRecord]
    rw [hf]
    by_cases hle : recLen r ≤ cut
    · have hle' : 16 + (Codec.enc r.2).length ≤ cut := hle
      rw [complete, torn, if_pos hle, if_pos hle]
      have e : (Codec.enc r.1 ++ (Codec.enc r.2 ++ logFile rs)).take cut =
          Codec.enc r.1 ++ (Codec.enc r.2 ++ (logFile rs).take (cut - recLen r)) := by
        rw [List.take_append, List.take_of_length_le (by omega), List.take_append,
          List.take_of_length_le (by omega)]
        rw [show cut - (Codec.enc r.1).length - (Codec.enc r.2).length = cut - recLen r by
          rw [hl, recLen]; omega]
      rw [e, IStream.ofBytes, readStamp_full, List.map_cons, List.cons_append]
      refine ⟨rfl, ht r (by simp), ?_, ?_⟩
      · show (Codec.dec _ _).1 = _
        rw [hc.rt]
      · show Reads _ _ (Reader.readStamp ⟨(Codec.dec _ _).2, r.1⟩) _
        rw [hc.rt]
        exact ih (fun x hx => ht x (by simp [hx])) _ _
    · have hle' : ¬ (16 + (Codec.enc r.2).length ≤ cut) := hle
      rw [complete, torn, if_neg hle, if_neg hle]
      simp only [List.map_nil, List.nil_append, tornList]
      by_cases h16 : 16 ≤ cut
      · rw [if_pos h16]
        have e : (Codec.enc r.1 ++ (Codec.enc r.2 ++ logFile rs)).take cut =
            Codec.enc r.1 ++ (Codec.enc r.2).take (cut - 16) := by
          rw [List.take_append, List.take_of_length_le (by omega), List.take_append, hl,
            show cut - 16 - (Codec.enc r.2).length = 0 by omega, List.take_zero, List.append_nil]
        rw [e, IStream.ofBytes, readStamp_full]
        refine ⟨rfl, ht r (by simp), rfl, ?_⟩
        show (Reader.readStamp ⟨(Codec.dec _ _).2, r.1⟩).next = MAX_TIME
        apply readStamp_eof
        apply hc.short
        have := hc.len r.2
        simp only [List.length_take]
        omega
      · rw [if_neg h16]
        show (Reader.readStamp _).next = MAX_TIME
        apply readStamp_short
        simp only [List.length_take]
        omega

theorem complete_all (rs : List (Stamp × δ)) : complete (logFile rs).length rs = rs := by
  induction rs with
  | nil => rfl
  | cons r rs ih =>
    have hl : (Codec.enc r.1).length = 16 := stamp_laws.len r.1
    have e : (logFile (r :: rs)).length = recLen r + (logFile rs).length := by
      simp [logFile, logRecord, recLen, hl]; omega
    rw [complete, e, if_pos (Nat.le_add_right _ _), Nat.add_sub_cancel_left, ih]

theorem torn_all (rs : List (Stamp × δ)) : torn (logFile rs).length rs = none := by
  induction rs with
  | nil => rfl
  | cons r rs ih =>
    have hl : (Codec.enc r.1).length = 16 := stamp_laws.len r.1
    have e : (logFile (r :: rs)).length = recLen r + (logFile rs).length := by
      simp [logFile, logRecord, recLen, hl]; omega
    rw [torn, e, if_pos (Nat.le_add_right _ _), Nat.add_sub_cancel_left, ih]

theorem reads_file {n : Nat} {u : δ → δ → δ} (hc : Laws c n u) (old : δ) (rs : List (Stamp × δ))
    (ht : ∀ r ∈ rs, InTime r.1) (nx : Stamp) :
    Reads (fun r : Reader => r.next) (Reader.get old) (Reader.open nx (logFile rs))
      (rs.map (fun r => (r.1, u old r.2))) := by
  have := reads_cut hc old rs ht (logFile rs).length nx
  rw [complete_all, torn_all, List.take_length] at this
  simpa [tornList, Reader.open] using this

/-- A single source is replayed as it is. -/
theorem merge_single {P : Type} {k : Int} {rs : List (Stamp × P)} {out : List (Int × Stamp × P)}
    (h : IsMerge [(k, rs)] out) : out = rs.map fun r => (k, r) := by
  have h1 := h.order (k, rs) (by simp)
  have h2 : ∀ o ∈ out, o.1 = k := by
    intro o ho
    obtain ⟨s, hs, r, _, rfl⟩ := mem_of_merge h ho
    simp only [List.mem_singleton] at hs
    rw [hs]
  rw [List.filter_eq_self.2 (by simpa using h2)] at h1
  simp only at h1
  rw [← h1]
  rw [List.map_map]
  conv_lhs => rw [← List.map_id out]
  apply List.map_congr_left
  intro o ho
  simp [← h2 o ho]

end

/-! ### Decimal digits -/

/-- The number written with the given digits. -/
def decVal (l : List Char) : Nat := l.foldl (fun v ch => 10 * v + (ch.toNat - 48)) 0

theorem digit_val (n : Nat) (h : n < 10) : (Char.ofNat (48 + n)).toNat - 48 = n := by
  have : ∀ n : Fin 10, (Char.ofNat (48 + n.val)).toNat - 48 = n.val := by decide
  exact this ⟨n, h⟩

theorem decVal_digits (n : Nat) : decVal (digits n) = n := by
  induction n using Nat.strongRecOn with
  | _ n ih =>
    rw [digits]
    split
    · next h => simp only [decVal, List.foldl_cons, List.foldl_nil]; rw [digit_val n h]; omega
    · next h =>
      have := ih (n / 10) (by omega)
      rw [decVal] at this
      rw [decVal, List.foldl_append, this]
      simp only [List.foldl_cons, List.foldl_nil]
      rw [digit_val _ (Nat.mod_lt _ (by omega))]
      omega

theorem digits_inj {m n : Nat} (h : digits m = digits n) : m = n := by
  rw [← decVal_digits m, h, decVal_digits]

theorem digits_ten (n : Nat) (h : 0 < n) : digits (10 * n) = digits n ++ ['0'] := by
  conv_lhs => rw [digits]
  rw [if_neg (by omega), show 10 * n / 10 = n by omega, show 10 * n % 10 = 0 by omega]

/-- The first digit is not a minus sign, and is a zero only for zero. -/
theorem digits_head (n : Nat) : ∃ d l, digits n = Char.ofNat (48 + d) :: l ∧ d < 10 ∧ (0 < n → 0 < d) := by
  induction n using Nat.strongRecOn with
  | _ n ih =>
    rw [digits]
    split
    · next h => exact ⟨n, [], rfl, h, id⟩
    · next h =>
      obtain ⟨d, l, h1, h2, h3⟩ := ih (n / 10) (by omega)
      exact ⟨d, l ++ [Char.ofNat (48 + n % 10)], by rw [h1]; rfl, h2, fun _ => h3 (by omega)⟩

theorem digits_length (n k : Nat) : (digits n).length ≤ k + 1 ↔ n < 10 ^ (k + 1) := by
  induction k generalizing n with
  | zero =>
    rw [digits]
    split
    · simp; omega
    · have : 0 < (digits (n / 10)).length := by
        obtain ⟨d, l, h, _⟩ := digits_head (n / 10); rw [h]; simp
      simp only [List.length_append, List.length_singleton]; omega
  | succ k ih =>
    rw [digits]
    split
    · next h =>
      have : 10 ^ (k + 1 + 1) ≥ 10 ^ 1 := Nat.pow_le_pow_right (by omega) (by omega)
      simp; omega
    · have := ih (n / 10)
      rw [Nat.pow_succ 10 (k + 1)]
      simp only [List.length_append, List.length_singleton, Nat.add_le_add_iff_right]
      rw [this, Nat.div_lt_iff_lt_mul (by omega)]

theorem showInt_inj {a b : Int} (h : showInt a = showInt b) : a = b := by
  obtain ⟨d, l, hd, hd1, -⟩ := digits_head a.natAbs
  obtain ⟨e, k, he, he1, -⟩ := digits_head b.natAbs
  have hne : ∀ d : Fin 10, Char.ofNat (48 + d.val) ≠ '-' := by decide
  unfold showInt at h
  split at h <;> split at h
  · have := digits_inj (List.cons.inj h).2; omega
  · rw [he] at h; exact absurd (List.cons.inj h).1.symm (hne ⟨e, he1⟩)
  · rw [hd] at h; exact absurd (List.cons.inj h).1 (hne ⟨d, hd1⟩)
  · have := digits_inj h; omega

theorem showInt_head {a : Int} (h : a ≠ 0) (l : List Char) : showInt a ≠ '0' :: l := by
  obtain ⟨d, l', hd, hd1, hd2⟩ := digits_head a.natAbs
  have hne : ∀ d : Fin 10, 0 < d.val → Char.ofNat (48 + d.val) ≠ '0' := by decide
  unfold showInt
  split
  · intro e; exact absurd (List.cons.inj e).1 (by decide)
  · rw [hd]; intro e; exact hne ⟨d, hd1⟩ (hd2 (by omega)) (List.cons.inj e).1

theorem showInt_ten {a : Int} (h : a ≠ 0) : showInt (10 * a) = showInt a ++ ['0'] := by
  unfold showInt
  have e : (10 * a).natAbs = 10 * a.natAbs := by omega
  split <;> split <;> try omega
  · rw [e, digits_ten _ (by omega)]; rfl
  · rw [e, digits_ten _ (by omega)]

theorem showInt_length (a : Int) : (showInt a).length =
    if a < 0 then (digits a.natAbs).length + 1 else (digits a.natAbs).length := by
  unfold showInt; split <;> simp

theorem digits_len_eq (n k : Nat) (h : 10 ^ (k + 1) ≤ n) (h' : n < 10 ^ (k + 2)) :
    (digits n).length = k + 2 := by
  have h1 := (digits_length n k)
  have h2 := (digits_length n (k + 1)).2 h'
  have : ¬ ((digits n).length ≤ k + 1) := by rw [h1]; omega
  omega

theorem digits_len_one (n : Nat) (h : n < 10) : (digits n).length = 1 := by
  rw [digits, if_pos h]; rfl

/-- Two characters: padded on both sides. -/
theorem centre_two {a : Int} (h : (12 ≤ a ∧ a ≤ 99) ∨ (-9 ≤ a ∧ a ≤ -1)) :
    centre '0' 4 (showInt a) = '0' :: showInt (10 * a) := by
  have hl : (showInt a).length = 2 := by
    rw [showInt_length]
    split
    · rw [digits_len_one _ (by omega)]
    · rw [digits_len_eq _ 0 (by omega) (by omega)]
  rw [showInt_ten (by omega), centre, hl]
  rfl

/-- Three characters: padded on the right. -/
theorem centre_three {a : Int} (h : (100 ≤ a ∧ a ≤ 999) ∨ (-99 ≤ a ∧ a ≤ -10)) :
    centre '0' 4 (showInt a) = showInt (10 * a) := by
  have hl : (showInt a).length = 3 := by
    rw [showInt_length]
    split
    · rw [digits_len_eq _ 0 (by omega) (by omega)]
    · rw [digits_len_eq _ 1 (by omega) (by omega)]
  rw [showInt_ten (by omega), centre, hl]
  rfl

/-- Four characters or more: not padded. -/
theorem centre_long {a : Int} (h : 1000 ≤ a ∨ a ≤ -100) :
    centre '0' 4 (showInt a) = showInt a := by
  have hl : 4 ≤ (showInt a).length := by
    rw [showInt_length]
    split
    · have h1 : ¬ ((digits a.natAbs).length ≤ 1 + 1) := by rw [digits_length]; omega
      omega
    · have h1 : ¬ ((digits a.natAbs).length ≤ 2 + 1) := by rw [digits_length]; omega
      omega
  have : 4 - (showInt a).length = 0 := by omega
  rw [centre, this]
  simp

/-- Keys formatted alike. -/
def Clash (a b : Int) : Prop := b = 10 * a ∧ ((100 ≤ a ∧ a ≤ 999) ∨ (-99 ≤ a ∧ a ≤ -10))

theorem centre_iff {a b : Int} (ha : a < 0 ∨ 12 ≤ a) (hb : b < 0 ∨ 12 ≤ b) :
    centre '0' 4 (showInt a) = centre '0' 4 (showInt b) ↔ a = b ∨ Clash a b ∨ Clash b a := by
  have cls : ∀ x : Int, (x < 0 ∨ 12 ≤ x) →
      ((12 ≤ x ∧ x ≤ 99) ∨ (-9 ≤ x ∧ x ≤ -1)) ∨ ((100 ≤ x ∧ x ≤ 999) ∨ (-99 ≤ x ∧ x ≤ -10)) ∨
      (1000 ≤ x ∨ x ≤ -100) := by intro x; omega
  unfold Clash
  rcases cls a ha with h | h | h <;> rcases cls b hb with h' | h' | h'
  · rw [centre_two h, centre_two h']
    constructor
    · intro e; have := showInt_inj (List.cons.inj e).2; omega
    · intro e; rw [show a = b by omega]
  · rw [centre_two h, centre_three h']
    constructor
    · intro e; exact absurd e.symm (showInt_head (by omega) _)
    · intro e; omega
  · rw [centre_two h, centre_long h']
    constructor
    · intro e; exact absurd e.symm (showInt_head (by omega) _)
    · intro e; omega
  · rw [centre_three h, centre_two h']
    constructor
    · intro e; exact absurd e (showInt_head (by omega) _)
    · intro e; omega
  · rw [centre_three h, centre_three h']
    constructor
    · intro e; have := showInt_inj e; omega
    · intro e; rw [show a = b by omega]
  · rw [centre_three h, centre_long h']
    constructor
    · intro e; have := showInt_inj e; omega
    · intro e; rw [show b = 10 * a by omega]
  · rw [centre_long h, centre_two h']
    constructor
    · intro e; exact absurd e (showInt_head (by omega) _)
    · intro e; omega
  · rw [centre_long h, centre_three h']
    constructor
    · intro e; have := showInt_inj e; omega
    · intro e; rw [show a = 10 * b by omega]
  · rw [centre_long h, centre_long h']
    constructor
    · intro e; have := showInt_inj e; omega
    · intro e; rw [show a = b by omega]

theorem logKeyName_other {a : Int} (ha : a < 0 ∨ 12 ≤ a) :
    logKeyName a = "LOG_KEY_".toList ++ centre '0' 4 (showInt a) := by
  unfold logKeyName
  iterate 12 rw [if_neg (by omega)]

theorem logKeyName_named {a : Int} (ha : 0 ≤ a ∧ a < 12) :
    ∃ ch l, logKeyName a = ch :: l ∧ ch ≠ 'L' := by
  obtain ⟨n, rfl⟩ : ∃ n : Fin 12, a = (n.val : Int) := ⟨⟨a.toNat, by omega⟩, by simp; omega⟩
  have : ∀ n : Fin 12, (logKeyName (n.val : Int)).head? ≠ none ∧
      (logKeyName (n.val : Int)).head? ≠ some 'L' := by decide +kernel
  obtain ⟨h1, h2⟩ := this n
  rcases hk : logKeyName (n.val : Int) with _ | ⟨ch, l⟩
  · rw [hk] at h1; simp at h1
  · rw [hk] at h2; exact ⟨ch, l, rfl, by simpa using h2⟩

theorem logKeyName_named_inj {a b : Int} (ha : 0 ≤ a ∧ a < 12) (hb : 0 ≤ b ∧ b < 12)
    (h : logKeyName a = logKeyName b) : a = b := by
  obtain ⟨n, rfl⟩ : ∃ n : Fin 12, a = (n.val : Int) := ⟨⟨a.toNat, by omega⟩, by simp; omega⟩
  obtain ⟨m, rfl⟩ : ∃ n : Fin 12, b = (n.val : Int) := ⟨⟨b.toNat, by omega⟩, by simp; omega⟩
  have : ∀ n m : Fin 12, logKeyName (n.val : Int) = logKeyName (m.val : Int) → n = m := by
    decide +kernel
  rw [this n m h]

theorem logKeyName_iff (a b : Int) :
    logKeyName a = logKeyName b ↔ a = b ∨ Clash a b ∨ Clash b a := by
  by_cases ha : 0 ≤ a ∧ a < 12 <;> by_cases hb : 0 ≤ b ∧ b < 12
  · constructor
    · intro h; exact Or.inl (logKeyName_named_inj ha hb h)
    · unfold Clash; intro h; rw [show a = b by omega]
  · rw [logKeyName_other (a := b) (by omega)]
    obtain ⟨ch, l, h1, h2⟩ := logKeyName_named ha
    rw [h1]
    constructor
    · intro h; exact absurd (List.cons.inj h).1 h2
    · unfold Clash; omega
  · rw [logKeyName_other (a := a) (by omega)]
    obtain ⟨ch, l, h1, h2⟩ := logKeyName_named hb
    rw [h1]
    constructor
    · intro h; exact absurd (List.cons.inj h).1.symm h2
    · unfold Clash; omega
  · rw [logKeyName_other (a := a) (by omega), logKeyName_other (a := b) (by omega),
      List.append_cancel_left_eq, centre_iff (by omega) (by omega)]

end Verif.Log
