import Verif.Spec.LogFormat
import Verif.Lemmas.Logging
/-!
# Lemmas about headers and the Python reader
-/
namespace Verif.Log.Spec

open Verif.Log View Number

/-- The header of a type is right: it gives a dtype, whose size is the number of bytes written and
which reads the bytes back. -/
structure Described (α : Type) [Codec α] [Header α] [View α] (d : DType) : Prop where
  dt : makeDtype (Header.fmt α) = some d
  len : ∀ x : α, (Codec.enc x).length = d.size
  read : ∀ (p : List String) (x : α), d.read p (Codec.enc x) = View.view p x

/-! ### Numbers -/

/-- The number of a basic type is that of a numpy type reading its bytes. -/
structure NumOk (α : Type) [Raw α] [TypeCode α] [Number α] (s : Scalar) : Prop where
  code : dataTypes (TypeCode.code α) = some s
  size : s.size = Raw.size α
  read : ∀ x : α, s.read (Raw.toBytes x) = num x

instance : LawfulRaw F32 := ⟨fun _ => encLE_length _ _, fun x => by
  show F32.mk (UInt32.ofNat (decLE (encLE 4 x.bits.toNat))) = x
  rw [decLE_encLE, Nat.mod_eq_of_lt (by have := x.bits.toNat_lt; omega)]; simp⟩
instance : LawfulRaw UInt64 := ⟨fun _ => encLE_length _ _, fun x => by
  show UInt64.ofNat (decLE (encLE 8 x.toNat)) = x
  rw [decLE_encLE, Nat.mod_eq_of_lt (by have := x.toNat_lt; omega)]; simp⟩
instance : LawfulRaw Int16 := ⟨fun _ => encLE_length _ _, fun x => by
  show Int16.ofUInt16 (UInt16.ofNat (decLE (encLE 2 x.toUInt16.toNat))) = x
  rw [decLE_encLE, Nat.mod_eq_of_lt (by have := x.toUInt16.toNat_lt; omega)]; simp⟩
instance : LawfulRaw Int8 := ⟨fun _ => encLE_length _ _, fun x => by
  show Int8.ofUInt8 (UInt8.ofNat (decLE (encLE 1 x.toUInt8.toNat))) = x
  rw [decLE_encLE, Nat.mod_eq_of_lt (by have := x.toUInt8.toNat_lt; omega)]; simp⟩

theorem ok_f64 : NumOk F64 .float64 := ⟨rfl, rfl, fun x => by
  show Num.f64 (decLE (encLE 8 x.bits.toNat)) = .f64 x.bits.toNat
  rw [decLE_encLE, Nat.mod_eq_of_lt (by have := x.bits.toNat_lt; omega)]⟩
theorem ok_f32 : NumOk F32 .float32 := ⟨rfl, rfl, fun x => by
  show Num.f32 (decLE (encLE 4 x.bits.toNat)) = .f32 x.bits.toNat
  rw [decLE_encLE, Nat.mod_eq_of_lt (by have := x.bits.toNat_lt; omega)]⟩
theorem ok_u64 : NumOk UInt64 .uint64 := ⟨rfl, rfl, fun x => by
  show Num.int (decLE (encLE 8 x.toNat)) = .int x.toNat
  rw [decLE_encLE, Nat.mod_eq_of_lt (by have := x.toNat_lt; omega)]⟩
theorem ok_u32 : NumOk UInt32 .uint32 := ⟨rfl, rfl, fun x => by
  show Num.int (decLE (encLE 4 x.toNat)) = .int x.toNat
  rw [decLE_encLE, Nat.mod_eq_of_lt (by have := x.toNat_lt; omega)]⟩
theorem ok_u16 : NumOk UInt16 .uint16 := ⟨rfl, rfl, fun x => by
  show Num.int (decLE (encLE 2 x.toNat)) = .int x.toNat
  rw [decLE_encLE, Nat.mod_eq_of_lt (by have := x.toNat_lt; omega)]⟩
theorem ok_u8 : NumOk UInt8 .uint8 := ⟨rfl, rfl, fun x => by
  show Num.int (decLE (encLE 1 x.toNat)) = .int x.toNat
  rw [decLE_encLE, Nat.mod_eq_of_lt (by have := x.toNat_lt; omega)]⟩

theorem twos_toNat {w : Nat} (x : BitVec w) (hw : 0 < w) : twos w x.toNat = x.toInt := by
  rw [BitVec.toInt_eq_toNat_cond, twos]
  have h : 2 * 2 ^ (w - 1) = 2 ^ w := by
    rw [← Nat.pow_succ']; congr 1; omega
  by_cases hx : x.toNat < 2 ^ (w - 1)
  · rw [if_pos hx, if_pos (by omega)]
  · rw [if_neg hx, if_neg (by omega)]; simp

theorem ok_i64 : NumOk Int64 .int64 := ⟨rfl, rfl, fun x => by
  show Num.int (twos 64 (decLE (encLE 8 x.toUInt64.toNat))) = .int x.toInt
  rw [decLE_encLE, Nat.mod_eq_of_lt (by have := x.toUInt64.toNat_lt; omega)]
  exact congrArg _ (twos_toNat x.toBitVec (by decide))⟩
theorem ok_i32 : NumOk Int32 .int32 := ⟨rfl, rfl, fun x => by
  show Num.int (twos 32 (decLE (encLE 4 x.toUInt32.toNat))) = .int x.toInt
  rw [decLE_encLE, Nat.mod_eq_of_lt (by have := x.toUInt32.toNat_lt; omega)]
  exact congrArg _ (twos_toNat x.toBitVec (by decide))⟩
theorem ok_i16 : NumOk Int16 .int16 := ⟨rfl, rfl, fun x => by
  show Num.int (twos 16 (decLE (encLE 2 x.toUInt16.toNat))) = .int x.toInt
  rw [decLE_encLE, Nat.mod_eq_of_lt (by have := x.toUInt16.toNat_lt; omega)]
  exact congrArg _ (twos_toNat x.toBitVec (by decide))⟩
theorem ok_i8 : NumOk Int8 .int8 := ⟨rfl, rfl, fun x => by
  show Num.int (twos 8 (decLE (encLE 1 x.toUInt8.toNat))) = .int x.toInt
  rw [decLE_encLE, Nat.mod_eq_of_lt (by have := x.toUInt8.toNat_lt; omega)]
  exact congrArg _ (twos_toNat x.toBitVec (by decide))⟩

section number
variable {α : Type} [Raw α] [LawfulRaw α] [TypeCode α] [Number α] {s : Scalar}

theorem fmt_scalar (hs : dataTypes (TypeCode.code α) = some s) :
    makeDtype (Header.fmt α) = some (.scalar s) := by
  show makeDtype (mkMap [("type", .num (TypeCode.code α))]) = _
  simp [mkMap, Entries.set, makeDtype, Entries.get, Entries.scalar, hs]

theorem fmt_eigen (hs : dataTypes (TypeCode.code α) = some s) (r c : Nat) :
    makeDtype (fmtEigen α r c) = some (.matrix s r c) := by
  simp [fmtEigen, mkMap, Entries.set, makeDtype, Entries.get, Entries.scalar, Entries.len, hs]

theorem described_num (h : NumOk α s) : Described α (.scalar s) where
  dt := fmt_scalar h.code
  len x := by
    show (Raw.toBytes x).length = s.size
    rw [LawfulRaw.len, h.size]
  read p x := by
    show [((p, []), s.nth (Raw.toBytes x) 0)] = [((p, []), num x)]
    have e : s.nth (Raw.toBytes x) 0 = s.read (Raw.toBytes x) := by
      rw [Scalar.nth, Nat.zero_mul, List.drop_zero, List.take_of_length_le]
      rw [LawfulRaw.len, h.size]
    rw [e, h.read]

theorem nth_vector (h : NumOk α s) {n : Nat} (v : Vector α n) (i : Nat) (hi : i < n) :
    s.nth (Raw.toBytes v) i = num v[i] := by
  rw [Scalar.nth, h.size]
  show s.read (((v.toList.flatMap Raw.toBytes).drop (i * Raw.size α)).take (Raw.size α)) = _
  rw [flatMap_chunk v.toList i (by simpa using hi), h.read]
  simp

theorem range_flatMap_eq {β : Type} (r : Nat) (f : Nat → List β) :
    (List.range r).flatMap f = (List.finRange r).flatMap fun i => f i.val := by
  rw [← List.map_coe_finRange_eq_range, List.flatMap_map]

theorem range_map_eq {β : Type} (r : Nat) (f : Nat → β) :
    (List.range r).map f = (List.finRange r).map fun i => f i.val := by
  rw [← List.map_coe_finRange_eq_range, List.map_map]; rfl

theorem described_vector (h : NumOk α s) (n : Nat) : Described (Vector α n) (.matrix s n 1) where
  dt := fmt_eigen h.code n 1
  len x := by
    show (Raw.toBytes x).length = n * 1 * s.size
    rw [LawfulRaw.len, h.size, Nat.mul_one]; rfl
  read p x := by
    show (List.range n).flatMap (fun i => (List.range 1).map fun j =>
      ((p, [i, j]), s.nth (Raw.toBytes x) (i * 1 + j))) = _
    rw [range_flatMap_eq]
    show _ = (List.finRange n).map fun i : Fin n => ((p, [i.val, 0]), num x[i.val])
    rw [List.map_eq_flatMap]
    congr 1; funext i
    have e := nth_vector h x i.val i.isLt
    simp [List.range_succ, e]

/-- What Python reads for a matrix: at row `i` and column `j` the number stored at position
`i * c + j`. -/
theorem read_matrix (h : NumOk α s) {r c : Nat} (p : List String) (m : EMat α r c) :
    (DType.matrix s r c).read p (Codec.enc m) =
      (List.finRange r).flatMap fun i => (List.finRange c).map fun j =>
        ((p, [i.val, j.val]), num (m.data[i.val * c + j.val]'(by
          have := i.isLt; have := j.isLt
          calc i.val * c + j.val < i.val * c + c := by omega
            _ = (i.val + 1) * c := by rw [Nat.add_mul, Nat.one_mul]
            _ ≤ r * c := Nat.mul_le_mul_right _ (by omega)))) := by
  show (List.range r).flatMap (fun i => (List.range c).map fun j =>
      ((p, [i, j]), s.nth (Raw.toBytes m.data) (i * c + j))) = _
  rw [range_flatMap_eq]
  congr 1; funext i
  rw [range_map_eq]
  congr 1; funext j
  rw [nth_vector h m.data (i.val * c + j.val)]

theorem described_matrix (h : NumOk α s) {r c : Nat} (hrc : r ≤ 1 ∨ c ≤ 1) :
    Described (EMat α r c) (.matrix s r c) where
  dt := fmt_eigen h.code r c
  len x := by
    show (Raw.toBytes x.data).length = r * c * s.size
    rw [LawfulRaw.len, h.size]; rfl
  read p x := by
    rw [read_matrix h]
    show _ = (List.finRange r).flatMap fun i => (List.finRange c).map fun j =>
      ((p, [i.val, j.val]), num (entry x i j))
    congr 1; funext i
    congr 1; funext j
    have e : i.val * c + j.val = i.val + r * j.val := by
      have := i.isLt; have := j.isLt
      rcases hrc with hr | hc
      · have : r = 1 := by omega
        have : i.val = 0 := by omega
        simp [*]
      · have : c = 1 := by omega
        have : j.val = 0 := by omega
        simp [*]
    simp only [entry, e]
end number

/-! ### Structured types -/

/-- The entries `es` of a header describe the bytes `enc x` with the meaning `vw`. -/
structure FieldsOk {σ : Type} (es : Entries) (fs : DFields) (enc : σ → List UInt8)
    (vw : List String → σ → Reading) : Prop where
  dt : makeFields es = some fs
  len : ∀ x, (enc x).length = fs.size
  read : ∀ p x, fs.read p (enc x) = vw p x

theorem fieldsOk_nil {σ : Type} :
    FieldsOk (σ := σ) .nil .nil (fun _ => []) (fun _ _ => []) :=
  ⟨rfl, fun _ => rfl, fun _ _ => rfl⟩

theorem fieldsOk_cons {σ α : Type} [Codec α] [Header α] [View α] {d : DType} (k : String)
    (get : σ → α) (hd : Described α d) {es : Entries} {fs : DFields} {enc : σ → List UInt8}
    {vw : List String → σ → Reading} (h : FieldsOk es fs enc vw) :
    FieldsOk (.cons k (Header.fmt α) es) (.cons k d fs)
      (fun x => Codec.enc (get x) ++ enc x)
      (fun p x => View.view (p ++ [k]) (get x) ++ vw p x) where
  dt := by simp [makeFields, hd.dt, h.dt]
  len x := by simp [DFields.size, hd.len, h.len]
  read p x := by
    show d.read (p ++ [k]) ((Codec.enc (get x) ++ enc x).take d.size) ++
      fs.read p ((Codec.enc (get x) ++ enc x).drop d.size) = _
    rw [← hd.len (get x), List.take_left, List.drop_left, hd.read, h.read]

/-- A mapping that `make_dtype` takes for a structure. -/
def Entries.Plain (es : Entries) : Prop :=
  es.get "cols" = none ∧ es.get "rows" = none ∧ es.get "type" = none ∧ es.length ≠ 1

theorem makeDtype_struct {es : Entries} {fs : DFields} (hp : Entries.Plain es)
    (h : makeFields es = some fs) : makeDtype (.map es) = some (.struct fs) := by
  obtain ⟨h1, h2, h3, h4⟩ := hp
  simp [makeDtype, h1, h2, h3, h4, h]

theorem described_struct {σ : Type} [Codec σ] [Header σ] [View σ] {es : Entries} {fs : DFields}
    {enc : σ → List UInt8} {vw : List String → σ → Reading} (h : FieldsOk es fs enc vw)
    (hp : Entries.Plain es) (hf : Header.fmt σ = .map es) (he : ∀ x : σ, Codec.enc x = enc x)
    (hv : ∀ p (x : σ), View.view p x = vw p x) : Described σ (.struct fs) where
  dt := by rw [hf]; exact makeDtype_struct hp h.dt
  len x := by rw [he]; exact h.len x
  read p x := by rw [he, hv]; exact h.read p x

end Verif.Log.Spec
