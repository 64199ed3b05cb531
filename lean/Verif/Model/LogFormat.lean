import Verif.Model.Logging
/-!
# Model of the headers of the log files and of the Python reader

common/logging/log_format.h, log_format.cxx, log_writer.h 32-49, 96-110, log_reader.py 10-46, 77-98.

Next to `<stream>.log` the logger writes `<stream>.yml`, whose entry `format` describes the records;
`log_reader.py` turns that entry into a numpy dtype and reads the log file with `np.fromfile`.

Simplifications:
* yaml is a tree of numbers and mappings.  Writing the file and loading it again gives the same tree
  with the keys in the same order: yaml-cpp keeps the order of insertion, PyYAML fills a dict in the
  order of the file.  Names that yaml reads as something else than a string (`on`, `12`, ...) and
  the empty name, which numpy replaces, are left out.
* numpy: structured types are packed (`align=False`), arrays are in C order, all numbers
  little-endian; `np.fromfile` drops an incomplete record at the end.
* A Python exception is `none`.
* The renaming of the field `t` and the extra field with the time in seconds (log_reader.py 86-96)
  come after the reading and are left out.
-/
namespace Verif.Log

/-! ### Numbers the logging code knows besides those of `Model.Logging` -/

/-- A `float`, as its bit pattern. -/
structure F32 where
  bits : UInt32
deriving DecidableEq

instance : Raw F32 := ⟨4, fun x => encLE 4 x.bits.toNat, fun b => ⟨UInt32.ofNat (decLE b)⟩⟩
instance : Raw UInt64 := ⟨8, fun x => encLE 8 x.toNat, fun b => UInt64.ofNat (decLE b)⟩
instance : Raw Int16 :=
  ⟨2, fun x => encLE 2 x.toUInt16.toNat, fun b => Int16.ofUInt16 (UInt16.ofNat (decLE b))⟩
instance : Raw Int8 :=
  ⟨1, fun x => encLE 1 x.toUInt8.toNat, fun b => Int8.ofUInt8 (UInt8.ofNat (decLE b))⟩

/-- A fixed-size Eigen matrix; `data` is what `.data()` points to, column after column (Eigen's
default). -/
structure EMat (α : Type) (r c : Nat) where
  data : Vector α (r * c)

/-- serialize.h 51-62 and 86-97 on a fixed-size matrix. -/
instance {α : Type} [Raw α] {r c : Nat} : Codec (EMat α r c) where
  enc m := Codec.enc m.data
  dec s old := let d := Codec.dec s old.data; (⟨d.1⟩, d.2)

/-- math/dquat.h 28-61: `DQuat::TangentVector`, a `Vec6`. -/
structure Tangent where
  v : Vector F64 6
deriving DecidableEq

instance : Codec Tangent where
  enc x := Codec.enc x.v
  dec s old := let d := Codec.dec s old.v; (⟨d.1⟩, d.2)

/-! ### yaml -/

mutual
/-- A yaml node. -/
inductive Yaml where
  | num (n : Nat)
  | map (es : Entries)
/-- The entries of a yaml mapping in order. -/
inductive Entries where
  | nil
  | cons (k : String) (v : Yaml) (es : Entries)
end

/-- `format[key]`, `key in format.keys()`. -/
def Entries.get : Entries → String → Option Yaml
  | .nil, _ => none
  | .cons k v es, q => if k = q then some v else es.get q

/-- yaml-cpp `node[key] = value`: the value of an existing key is replaced, a new key goes to the
end. -/
def Entries.set : Entries → String → Yaml → Entries
  | .nil, q, w => .cons q w .nil
  | .cons k v es, q, w => if k = q then .cons k w es else .cons k v (es.set q w)

/-- `len(format)`. -/
def Entries.length : Entries → Nat
  | .nil => 0
  | .cons _ _ es => es.length + 1

/-- A mapping filled by assignments in turn. -/
def mkMap (l : List (String × Yaml)) : Yaml :=
  .map (l.foldl (fun es kv => es.set kv.1 kv.2) .nil)

/-! ### `format` -/

/-- log_format.h 45-57: the numbers of the basic types. -/
def FP64 : Nat := 0
def FP32 : Nat := 1
def INT64 : Nat := 2
def INT32 : Nat := 3
def INT16 : Nat := 4
def INT8 : Nat := 5
def UINT64 : Nat := 6
def UINT32 : Nat := 7
def UINT16 : Nat := 8
def UINT8 : Nat := 9

/-- log_format.h 59-70: `get_type<T>::value`. -/
class TypeCode (α : Type) where
  code : Nat

instance : TypeCode F64 := ⟨FP64⟩
instance : TypeCode F32 := ⟨FP32⟩
instance : TypeCode Int64 := ⟨INT64⟩
instance : TypeCode Int32 := ⟨INT32⟩
instance : TypeCode Int16 := ⟨INT16⟩
instance : TypeCode Int8 := ⟨INT8⟩
instance : TypeCode UInt64 := ⟨UINT64⟩
instance : TypeCode UInt32 := ⟨UINT32⟩
instance : TypeCode UInt16 := ⟨UINT16⟩
instance : TypeCode UInt8 := ⟨UINT8⟩

/-- `format(T())`: the header of a type, made from a default-constructed object (log_format.h
141-145). -/
class Header (α : Type) where
  fmt : Yaml

/-- log_format.h 95-101: the template for everything but Eigen objects. -/
instance {α : Type} [TypeCode α] : Header α := ⟨mkMap [("type", .num (TypeCode.code α))]⟩

/-- log_format.h 85-93 on an object with `rows` rows and `cols` columns. -/
def fmtEigen (α : Type) [TypeCode α] (rows cols : Nat) : Yaml :=
  mkMap [("type", .num (TypeCode.code α)), ("rows", .num rows), ("cols", .num cols)]

/-- log_format.h 103-110. -/
def fmtArray (α : Type) [TypeCode α] (size : Nat) : Yaml :=
  mkMap [("type", .num (TypeCode.code α)), ("rows", .num size)]

/-- Fixed-size column vectors. -/
instance {α : Type} [TypeCode α] {n : Nat} : Header (Vector α n) := ⟨fmtEigen α n 1⟩

instance {α : Type} [TypeCode α] {r c : Nat} : Header (EMat α r c) := ⟨fmtEigen α r c⟩

/-- `VecX`: the default-constructed vector has no rows and one column. -/
instance {α : Type} [TypeCode α] : Header (List α) := ⟨fmtEigen α 0 1⟩

/-- log_format.cxx 19-25. -/
instance : Header Stamp :=
  ⟨mkMap [("sec", Header.fmt Int64), ("nsec", Header.fmt Int64)]⟩

/-- log_format.cxx 27-72. -/
instance : Header GpsEph :=
  ⟨mkMap [("gnss_id", Header.fmt UInt8), ("sat", Header.fmt UInt8), ("toe", Header.fmt Stamp),
    ("toc", Header.fmt Stamp), ("tow", Header.fmt UInt32), ("iodc", Header.fmt UInt16),
    ("iode", Header.fmt UInt8), ("week", Header.fmt UInt16), ("toes", Header.fmt UInt32),
    ("tocs", Header.fmt UInt32), ("af2", Header.fmt F64), ("af1", Header.fmt F64),
    ("af0", Header.fmt F64), ("m0", Header.fmt F64), ("delta_n", Header.fmt F64),
    ("ecc", Header.fmt F64), ("sqrta", Header.fmt F64), ("omega0", Header.fmt F64),
    ("i0", Header.fmt F64), ("w", Header.fmt F64), ("omegadot", Header.fmt F64),
    ("idot", Header.fmt F64), ("cuc", Header.fmt F64), ("cus", Header.fmt F64),
    ("crc", Header.fmt F64), ("crs", Header.fmt F64), ("cic", Header.fmt F64),
    ("cis", Header.fmt F64), ("health", Header.fmt UInt8), ("alert_flag", Header.fmt UInt8),
    ("anti_spoof", Header.fmt UInt8), ("code_on_L2", Header.fmt UInt8), ("ura", Header.fmt UInt8),
    ("L2_P_data_flag", Header.fmt UInt8), ("fit_interval_flag", Header.fmt UInt8),
    ("age_of_data_offset", Header.fmt UInt16), ("tgd", Header.fmt F64),
    ("iode1", Header.fmt UInt8), ("iode2", Header.fmt UInt8), ("iode3", Header.fmt UInt8),
    ("collected_subframes", Header.fmt UInt8)]⟩

/-- log_format.cxx 73-121. -/
instance : Header GalEph :=
  ⟨mkMap [("gnss_id", Header.fmt UInt8), ("sat", Header.fmt UInt8), ("toe", Header.fmt Stamp),
    ("toc", Header.fmt Stamp), ("tow", Header.fmt UInt32), ("iodc", Header.fmt UInt16),
    ("iode", Header.fmt UInt8), ("week", Header.fmt UInt16), ("toes", Header.fmt UInt32),
    ("tocs", Header.fmt UInt32), ("af2", Header.fmt F64), ("af1", Header.fmt F64),
    ("af0", Header.fmt F64), ("m0", Header.fmt F64), ("delta_n", Header.fmt F64),
    ("ecc", Header.fmt F64), ("sqrta", Header.fmt F64), ("omega0", Header.fmt F64),
    ("i0", Header.fmt F64), ("w", Header.fmt F64), ("omegadot", Header.fmt F64),
    ("idot", Header.fmt F64), ("cuc", Header.fmt F64), ("cus", Header.fmt F64),
    ("crc", Header.fmt F64), ("crs", Header.fmt F64), ("cic", Header.fmt F64),
    ("cis", Header.fmt F64), ("ai0", Header.fmt F64), ("ai1", Header.fmt F64),
    ("ai2", Header.fmt F64), ("bgd_e1_e5a", Header.fmt F64), ("bgd_e1_e5b", Header.fmt F64),
    ("e5b_hs", Header.fmt UInt8), ("e1b_hs", Header.fmt UInt8), ("e5b_dvs", Header.fmt UInt8),
    ("e1b_dvs", Header.fmt UInt8), ("collected_subframes", Header.fmt UInt8),
    ("time_f", Header.fmt Int32), ("iod", fmtArray Int32 4)]⟩

/-- log_format.cxx 123-155. -/
instance : Header GloEph :=
  ⟨mkMap [("gnss_id", Header.fmt UInt8), ("sat", Header.fmt UInt8), ("toe", Header.fmt Stamp),
    ("iode", Header.fmt Int32), ("slot", Header.fmt Int32), ("svh", Header.fmt Int32),
    ("sva", Header.fmt Int32), ("age", Header.fmt Int32), ("tof", Header.fmt Stamp),
    ("pos", Header.fmt (Vector F64 3)), ("vel", Header.fmt (Vector F64 3)),
    ("acc", Header.fmt (Vector F64 3)), ("taun", Header.fmt F64), ("gamn", Header.fmt F64),
    ("dtaun", Header.fmt F64), ("frame_flags", Header.fmt UInt8), ("time_mark", Header.fmt Int32),
    ("tk_h", Header.fmt Int32), ("tk_m", Header.fmt Int32), ("tk_s", Header.fmt Int32),
    ("tb", Header.fmt Int32), ("NT", Header.fmt Int32), ("N4", Header.fmt Int32),
    ("NA", Header.fmt Int32)]⟩

/-- log_format.cxx 157-164. -/
instance : Header ImuSample :=
  ⟨mkMap [("t", Header.fmt Stamp), ("accel", Header.fmt (Vector F64 3)),
    ("gyro", Header.fmt (Vector F64 3))]⟩

/-- log_format.cxx 166-177. -/
instance : Header GnssObservation :=
  ⟨mkMap [("t", Header.fmt Stamp), ("gnss_id", Header.fmt UInt8), ("sat_num", Header.fmt UInt8),
    ("freq", Header.fmt F64), ("pseudorange", Header.fmt F64), ("doppler", Header.fmt F64),
    ("carrier_phase", Header.fmt F64)]⟩

/-- log_format.cxx 179-187. -/
instance : Header Quat :=
  ⟨mkMap [("w", Header.fmt F64), ("x", Header.fmt F64), ("y", Header.fmt F64),
    ("z", Header.fmt F64)]⟩

/-- log_format.cxx 189-195. -/
instance : Header Pose :=
  ⟨mkMap [("rot", Header.fmt Quat), ("trans", Header.fmt (Vector F64 3))]⟩

/-- log_format.cxx 197-203.  The overload is not in log_format.h: elsewhere a `TangentVector` gets
the header of a `Vec6`. -/
instance : Header Tangent :=
  ⟨mkMap [("angular", Header.fmt (Vector F64 3)), ("linear", Header.fmt (Vector F64 3))]⟩

/-- log_format.cxx 205-211. -/
instance : Header Jet := ⟨mkMap [("x", Header.fmt Pose), ("dx", Header.fmt Tangent)]⟩

/-- log_format.cxx 212-219. -/
instance : Header TwoJet :=
  ⟨mkMap [("x", Header.fmt Pose), ("dx", Header.fmt Tangent), ("d2x", Header.fmt Tangent)]⟩

/-! ### Streams -/

/-- One argument of `initStream<T...>(key, names)`: its type and name. -/
structure Col where
  name : String
  α : Type
  [codec : Codec α]
  [header : Header α]

/-- The values of one call of `log`, of the types given to `initStream`. -/
def Row : List Col → Type
  | [] => Unit
  | c :: cs => c.α × Row cs

/-- log_writer.h 106: the bytes of the values. -/
def rowEnc : (cs : List Col) → Row cs → List UInt8
  | [], _ => []
  | c :: cs, x => c.codec.enc x.1 ++ rowEnc cs x.2

/-- log_writer.h 96-110: the file after the records `rs` were logged. -/
def streamFile (cs : List Col) (rs : List (Stamp × Row cs)) : List UInt8 :=
  rs.flatMap fun r => Codec.enc r.1 ++ rowEnc cs r.2

/-- log_format.h 124-139: the assignments of `__make_format_impl`; `none` is the failed check. -/
def fillFormat : Entries → List Col → Option Entries
  | es, [] => some es
  | es, c :: cs => if c.name = "t" then none else fillFormat (es.set c.name c.header.fmt) cs

/-- log_format.h 124-145. -/
def makeFormat (cs : List Col) : Option Yaml :=
  (fillFormat (Entries.nil.set "t" (Header.fmt Stamp)) cs).map .map

/-! ### `log_reader.py` -/

/-- The numpy types of `DATATYPES`. -/
inductive Scalar where
  | float64 | float32 | int64 | int32 | int16 | int8 | uint64 | uint32 | uint16 | uint8
deriving DecidableEq

/-- Size in bytes. -/
def Scalar.size : Scalar → Nat
  | .float64 | .int64 | .uint64 => 8
  | .float32 | .int32 | .uint32 => 4
  | .int16 | .uint16 => 2
  | .int8 | .uint8 => 1

/-- log_reader.py 10-21: `DATATYPES[n]`. -/
def dataTypes : Nat → Option Scalar
  | 0 => some .float64
  | 1 => some .float32
  | 2 => some .int64
  | 3 => some .int32
  | 4 => some .int16
  | 5 => some .int8
  | 6 => some .uint64
  | 7 => some .uint32
  | 8 => some .uint16
  | 9 => some .uint8
  | _ => none

mutual
/-- A numpy dtype. -/
inductive DType where
  | scalar (s : Scalar)
  | array (s : Scalar) (n : Nat)
  | matrix (s : Scalar) (rows cols : Nat)
  | struct (fs : DFields)
/-- The fields of a structured dtype. -/
inductive DFields where
  | nil
  | cons (name : String) (d : DType) (fs : DFields)
end

/-- `DATATYPES[format["type"]]`. -/
def Entries.scalar (es : Entries) : Option Scalar :=
  match es.get "type" with
  | some (.num n) => dataTypes n
  | _ => none

/-- `format[key]` used as a length. -/
def Entries.len (es : Entries) (key : String) : Option Nat :=
  match es.get key with
  | some (.num n) => some n
  | _ => none

mutual
/-- log_reader.py 24-38: `make_dtype`. -/
def makeDtype : Yaml → Option DType
  | .num _ => none
  | .map es =>
    if (es.get "cols").isSome then do
      let s ← es.scalar
      let r ← es.len "rows"
      let c ← es.len "cols"
      return .matrix s r c
    else if (es.get "rows").isSome then do
      let s ← es.scalar
      let n ← es.len "rows"
      return .array s n
    else if (es.get "type").isSome then do
      let s ← es.scalar
      return .scalar s
    else if es.length = 1 then makeFirst es
    else (makeFields es).map .struct
/-- `make_dtype(next(iter(format.values())))`. -/
def makeFirst : Entries → Option DType
  | .nil => none
  | .cons _ v _ => makeDtype v
/-- log_reader.py 35-38: the loop over `format.items()`. -/
def makeFields : Entries → Option DFields
  | .nil => some .nil
  | .cons k v es => do
    let d ← makeDtype v
    let fs ← makeFields es
    return .cons k d fs
end

mutual
/-- `itemsize`. -/
def DType.size : DType → Nat
  | .scalar s => s.size
  | .array s n => n * s.size
  | .matrix s r c => r * c * s.size
  | .struct fs => fs.size
/-- Sum of the sizes of the fields. -/
def DFields.size : DFields → Nat
  | .nil => 0
  | .cons _ d fs => d.size + fs.size
end

/-- What numpy makes of the bytes of one number; floating point numbers as their bit patterns. -/
inductive Num where
  | int (z : Int)
  | f64 (bits : Nat)
  | f32 (bits : Nat)
deriving DecidableEq

/-- Two's complement of a number below `2 ^ n`. -/
def twos (n : Nat) (x : Nat) : Int := if x < 2 ^ (n - 1) then x else (x : Int) - 2 ^ n

/-- The number in the bytes `b`. -/
def Scalar.read (s : Scalar) (b : List UInt8) : Num :=
  match s with
  | .float64 => .f64 (decLE b)
  | .float32 => .f32 (decLE b)
  | .int64 => .int (twos 64 (decLE b))
  | .int32 => .int (twos 32 (decLE b))
  | .int16 => .int (twos 16 (decLE b))
  | .int8 => .int (twos 8 (decLE b))
  | .uint64 | .uint32 | .uint16 | .uint8 => .int (decLE b)

/-- Everything in one record of a structured array: field names from the outside to the inside,
index in the array, number. -/
abbrev Reading := List ((List String × List Nat) × Num)

/-- The `k`-th number of an array in the bytes `b`. -/
def Scalar.nth (s : Scalar) (b : List UInt8) (k : Nat) : Num :=
  s.read ((b.drop (k * s.size)).take s.size)

mutual
/-- The record with the bytes `b`; `p` is the path to it. -/
def DType.read : DType → List String → List UInt8 → Reading
  | .scalar s, p, b => [((p, []), s.nth b 0)]
  | .array s n, p, b => (List.range n).map fun i => ((p, [i]), s.nth b i)
  | .matrix s r c, p, b =>
    (List.range r).flatMap fun i => (List.range c).map fun j => ((p, [i, j]), s.nth b (i * c + j))
  | .struct fs, p, b => fs.read p b
/-- The fields one after the other. -/
def DFields.read : DFields → List String → List UInt8 → Reading
  | .nil, _, _ => []
  | .cons k d fs, p, b => d.read (p ++ [k]) (b.take d.size) ++ fs.read p (b.drop d.size)
end

/-- log_reader.py 84: `np.fromfile(log_path, dtype=dtype)`. -/
def fromfile (d : DType) (bytes : List UInt8) : List Reading :=
  (List.range (bytes.length / d.size)).map fun k => d.read [] ((bytes.drop (k * d.size)).take d.size)

/-- log_reader.py 41-47, 77-84: a stream with the arguments `cs` of `initStream` and its log file. -/
def pyLoad (cs : List Col) (bytes : List UInt8) : Option (List Reading) := do
  let f ← makeFormat cs
  let d ← makeDtype f
  return fromfile d bytes

end Verif.Log
