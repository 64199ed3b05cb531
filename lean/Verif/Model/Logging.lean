import Verif.Model.Time
/-!
# Model of the log files: serialisation, stream reader, merged replay, file names

common/logging/serialize.h, serialize.cxx, log_writer.h, log_reader.h, log_reader.cxx, log_key.h.

Bytes are `UInt8`; the machine is little-endian with two's-complement integers; a `double` is its
64-bit pattern (`F64`), so nothing is lost in a copy.  The yaml files next to the streams
(`manifest.yml`, `<stream>.yml`) are not modelled: the key written there is the key of the stream.
-/
namespace Verif.Log

/-! ### `std::istream` over the bytes of a file -/

/-- The part of `std::ifstream` the code uses: bytes not read yet, `eofbit`, `failbit`. -/
structure IStream where
  rest : List UInt8
  eof : Bool
  fail : Bool
deriving DecidableEq

/-- A freshly opened file. -/
def IStream.ofBytes (bs : List UInt8) : IStream := ⟨bs, false, false⟩

/-- `std::istream::read(p, n)`: the bytes stored at `p` and the stream afterwards.  A stream that
is not `good()` stores nothing and sets `failbit`; a short read stores what is left and sets
`eofbit` and `failbit`; reading exactly up to the end does not set `eofbit`. -/
def IStream.read (s : IStream) (n : Nat) : List UInt8 × IStream :=
  if s.eof || s.fail then ([], { s with fail := true })
  else if n ≤ s.rest.length then (s.rest.take n, { s with rest := s.rest.drop n })
  else (s.rest, ⟨[], true, true⟩)

/-- Read into an object whose bytes are `mem`: a short read leaves the tail of `mem` as it was. -/
def IStream.readInto (s : IStream) (mem : List UInt8) : List UInt8 × IStream :=
  let r := s.read mem.length
  (r.1 ++ mem.drop r.1.length, r.2)

/-! ### Object representations -/

/-- Little-endian bytes of a number. -/
def encLE : Nat → Nat → List UInt8
  | 0, _ => []
  | n + 1, x => UInt8.ofNat x :: encLE n (x / 256)

/-- The number with the given little-endian bytes. -/
def decLE : List UInt8 → Nat
  | [] => 0
  | b :: bs => b.toNat + 256 * decLE bs

/-- A trivially copyable type: its size and object representation. -/
class Raw (α : Type) where
  size : Nat
  toBytes : α → List UInt8
  ofBytes : List UInt8 → α

instance : Raw UInt8 := ⟨1, fun x => encLE 1 x.toNat, fun b => UInt8.ofNat (decLE b)⟩
instance : Raw UInt16 := ⟨2, fun x => encLE 2 x.toNat, fun b => UInt16.ofNat (decLE b)⟩
instance : Raw UInt32 := ⟨4, fun x => encLE 4 x.toNat, fun b => UInt32.ofNat (decLE b)⟩
instance : Raw Int32 :=
  ⟨4, fun x => encLE 4 x.toUInt32.toNat, fun b => Int32.ofUInt32 (UInt32.ofNat (decLE b))⟩
instance : Raw Int64 :=
  ⟨8, fun x => encLE 8 x.toUInt64.toNat, fun b => Int64.ofUInt64 (UInt64.ofNat (decLE b))⟩

/-- A `double`, as its bit pattern. -/
structure F64 where
  bits : UInt64
deriving DecidableEq

instance : Raw F64 := ⟨8, fun x => encLE 8 x.bits.toNat, fun b => ⟨UInt64.ofNat (decLE b)⟩⟩

/-- Fixed-size Eigen matrices and `std::array`: the elements one after the other. -/
instance {α : Type} [Raw α] {n : Nat} : Raw (Vector α n) where
  size := n * Raw.size α
  toBytes v := v.toList.flatMap Raw.toBytes
  ofBytes b := Vector.ofFn fun i => Raw.ofBytes ((b.drop (i.val * Raw.size α)).take (Raw.size α))

/-! ### `serialize` / `deserialize` -/

/-- `serialize(file, x)` appends `enc x`; `deserialize(file, y)` turns the stream and the present
value of `y` into the new value of `y` and the stream afterwards. -/
class Codec (α : Type) where
  enc : α → List UInt8
  dec : IStream → α → α × IStream

/-- serialize.h 51-62 and 86-97: the generic templates on a trivially copyable object or a
fixed-size container. -/
instance {α : Type} [Raw α] : Codec α where
  enc := Raw.toBytes
  dec s old := let r := s.readInto (Raw.toBytes old); (Raw.ofBytes r.1, r.2)

/-- Elements of a dynamic container from its raw memory. -/
def chunks {α : Type} [Raw α] : Nat → List UInt8 → List α
  | 0, _ => []
  | n + 1, b => Raw.ofBytes (b.take (Raw.size α)) :: chunks n (b.drop (Raw.size α))

/-- serialize.h 51-62 and 86-97: the generic templates on a container whose size is chosen at run
time (`std::vector`, `std::string`, `VecX`): no length is written, and the reader reads as many
elements as the destination already has. -/
instance {α : Type} [Raw α] : Codec (List α) where
  enc l := l.flatMap Raw.toBytes
  dec s old :=
    let r := s.readInto (old.flatMap Raw.toBytes)
    (chunks old.length r.1, r.2)

/-- One member of a class, with its codec. -/
structure Fld (σ : Type) where
  α : Type
  [codec : Codec α]
  get : σ → α
  set : α → σ → σ

/-- `fld% name` is the member `name`. -/
macro "fld% " n:ident : term => `({ α := _, get := fun x => x.$n, set := fun v x => { x with $n:ident := v } })

/-- serialize.h 64-69, serialize.cxx 70-74: `log(file, in.f1, in.f2, ...)`. -/
def recEnc {σ : Type} (fs : List (Fld σ)) (x : σ) : List UInt8 :=
  fs.flatMap fun f => f.codec.enc (f.get x)

/-- serialize.h 99-104, serialize.cxx 75: `read(file, in.f1, in.f2, ...)`. -/
def recDec {σ : Type} : List (Fld σ) → IStream → σ → σ × IStream
  | [], s, o => (o, s)
  | f :: fs, s, o =>
    let r := f.codec.dec s (f.get o)
    recDec fs r.2 (f.set r.1 o)

/-- serialize.cxx 71-76: `DEF_SERIALIZE`. -/
@[reducible] def recCodec {σ : Type} (fs : List (Fld σ)) : Codec σ := ⟨recEnc fs, recDec fs⟩

/-- A pack of values logged together (log_writer.h 96-110, log_reader.h 30-35). -/
instance {α β : Type} [Codec α] [Codec β] : Codec (α × β) where
  enc x := Codec.enc x.1 ++ Codec.enc x.2
  dec s o :=
    let r := Codec.dec s o.1
    let r' := Codec.dec r.2 o.2
    ((r.1, r'.1), r'.2)

/-! ### The classes with their own overloads -/

/-- utctime.h 19-20; also `QuantizedTime`. -/
structure Stamp where
  sec : Int64
  nsec : Int64
deriving DecidableEq

/-- serialize.cxx 80-81. -/
def Stamp.fields : List (Fld Stamp) := [fld% sec, fld% nsec]
instance : Codec Stamp := recCodec Stamp.fields

/-- measurements/imu.h 12-14. -/
structure ImuSample where
  t : Stamp
  accel : Vector F64 3
  gyro : Vector F64 3
deriving DecidableEq

/-- serialize.cxx 78. -/
def ImuSample.fields : List (Fld ImuSample) := [fld% t, fld% accel, fld% gyro]
instance : Codec ImuSample := recCodec ImuSample.fields

/-- measurements/gnss_observation.h 14-21. -/
structure GnssObservation where
  t : Stamp
  gnss_id : UInt8
  sat_num : UInt8
  freq : F64
  pseudorange : F64
  doppler : F64
  carrier_phase : F64
deriving DecidableEq

/-- serialize.cxx 79. -/
def GnssObservation.fields : List (Fld GnssObservation) :=
  [fld% t, fld% gnss_id, fld% sat_num, fld% freq, fld% pseudorange, fld% doppler,
   fld% carrier_phase]
instance : Codec GnssObservation := recCodec GnssObservation.fields

/-- math/quat.h: the coefficients of a quaternion. -/
structure Quat where
  arr_ : Vector F64 4
deriving DecidableEq

/-- serialize.cxx 82. -/
def Quat.fields : List (Fld Quat) := [fld% arr_]
instance : Codec Quat := recCodec Quat.fields

/-- serialize.cxx 87-98: what is logged for a dual quaternion, its rotation and translation.  The
conversion of a `DQuat` to this pair and back is arithmetic and treated with C46. -/
structure Pose where
  q : Quat
  translation : Vector F64 3
deriving DecidableEq

def Pose.fields : List (Fld Pose) := [fld% q, fld% translation]
instance : Codec Pose := recCodec Pose.fields

/-- math/jet.h 13-14. -/
structure Jet where
  x : Pose
  dx : Vector F64 6
deriving DecidableEq

/-- serialize.cxx 83. -/
def Jet.fields : List (Fld Jet) := [fld% x, fld% dx]
instance : Codec Jet := recCodec Jet.fields

/-- math/two_jet.h 13-15. -/
structure TwoJet where
  x : Pose
  dx : Vector F64 6
  d2x : Vector F64 6
deriving DecidableEq

/-- serialize.cxx 84. -/
def TwoJet.fields : List (Fld TwoJet) := [fld% x, fld% dx, fld% d2x]
instance : Codec TwoJet := recCodec TwoJet.fields

/-- ephemeris/gps.h 8-61 with eph.h 33-36, 81-112: data members of `GPSEphemeris`. -/
structure GpsEph where
  gnssID : UInt8
  sat : UInt8
  toe : Stamp
  toc : Stamp
  tow : UInt32
  iodc : UInt16
  iode : UInt8
  week : UInt16
  toes : UInt32
  tocs : UInt32
  af2 : F64
  af1 : F64
  af0 : F64
  m0 : F64
  delta_n : F64
  ecc : F64
  sqrta : F64
  omega0 : F64
  i0 : F64
  w : F64
  omegadot : F64
  idot : F64
  cuc : F64
  cus : F64
  crc : F64
  crs : F64
  cic : F64
  cis : F64
  health : UInt8
  alert_flag : UInt8
  anti_spoof : UInt8
  code_on_L2 : UInt8
  ura : UInt8
  L2_P_data_flag : UInt8
  fit_interval_flag : UInt8
  age_of_data_offset : UInt16
  tgd : F64
  iode1 : UInt8
  iode2 : UInt8
  iode3 : UInt8
  collected_subframes : UInt8
deriving DecidableEq

/-- ephemeris/galileo.h 8-75 with eph.h: data members of `GalileoEphemeris`. -/
structure GalEph where
  gnssID : UInt8
  sat : UInt8
  toe : Stamp
  toc : Stamp
  tow : UInt32
  iodc : UInt16
  iode : UInt8
  week : UInt16
  toes : UInt32
  tocs : UInt32
  af2 : F64
  af1 : F64
  af0 : F64
  m0 : F64
  delta_n : F64
  ecc : F64
  sqrta : F64
  omega0 : F64
  i0 : F64
  w : F64
  omegadot : F64
  idot : F64
  cuc : F64
  cus : F64
  crc : F64
  crs : F64
  cic : F64
  cis : F64
  ai0 : F64
  ai1 : F64
  ai2 : F64
  bgd_e1_e5a : F64
  bgd_e1_e5b : F64
  e5b_hs : UInt8
  e1b_hs : UInt8
  e5b_dvs : UInt8
  e1b_dvs : UInt8
  collected_subframes : UInt8
  time_f : Int32
  iod : Vector Int32 4
deriving DecidableEq

/-- ephemeris/glonass.h 9-84 with eph.h 33-36: data members of `GlonassEphemeris`. -/
structure GloEph where
  gnssID : UInt8
  sat : UInt8
  toe : Stamp
  iode : Int32
  slot : Int32
  svh : Int32
  sva : Int32
  age : Int32
  tof : Stamp
  pos : Vector F64 3
  vel : Vector F64 3
  acc : Vector F64 3
  taun : F64
  gamn : F64
  dtaun : F64
  frame_flags_ : UInt8
  time_mark_ : Int32
  tk_h_ : Int32
  tk_m_ : Int32
  tk_s_ : Int32
  tb_ : Int32
  NT_ : Int32
  N4_ : Int32
  NA_ : Int32
deriving DecidableEq

/-- serialize.cxx 100-104: `DEF_SERIALIZE(ephemeris::GPSEphemeris, ...)`. -/
def GpsEph.fields : List (Fld GpsEph) :=
  [fld% gnssID, fld% sat, fld% toe, fld% toc, fld% tow, fld% iodc, fld% iode, fld% week,
   fld% toes, fld% tocs, fld% af2, fld% af1, fld% af0, fld% m0, fld% delta_n, fld% ecc,
   fld% sqrta, fld% omega0, fld% i0, fld% w, fld% omegadot, fld% idot, fld% cuc, fld% cus,
   fld% crc, fld% crs, fld% cic, fld% cis, fld% health, fld% alert_flag, fld% anti_spoof,
   fld% code_on_L2, fld% ura, fld% L2_P_data_flag, fld% fit_interval_flag,
   fld% age_of_data_offset, fld% tgd]
instance : Codec GpsEph := recCodec GpsEph.fields

/-- serialize.cxx 105-108: `DEF_SERIALIZE(ephemeris::GalileoEphemeris, ...)`. -/
def GalEph.fields : List (Fld GalEph) :=
  [fld% gnssID, fld% sat, fld% toe, fld% toc, fld% tow, fld% iodc, fld% iode, fld% week,
   fld% toes, fld% tocs, fld% af2, fld% af1, fld% af0, fld% m0, fld% delta_n, fld% ecc,
   fld% sqrta, fld% omega0, fld% i0, fld% w, fld% omegadot, fld% idot, fld% cuc, fld% cus,
   fld% crc, fld% crs, fld% cic, fld% cis, fld% ai0, fld% ai1, fld% ai2, fld% bgd_e1_e5a,
   fld% bgd_e1_e5b, fld% e5b_hs, fld% e1b_hs, fld% e5b_dvs, fld% e1b_dvs]
instance : Codec GalEph := recCodec GalEph.fields

/-- serialize.cxx 109-111: `DEF_SERIALIZE(ephemeris::GlonassEphemeris, ...)`; `toe` is listed twice. -/
def GloEph.fields : List (Fld GloEph) :=
  [fld% gnssID, fld% sat, fld% toe, fld% iode, fld% slot, fld% svh, fld% sva, fld% age,
   fld% toe, fld% tof, fld% pos, fld% vel, fld% acc, fld% taun, fld% gamn, fld% dtaun]
instance : Codec GloEph := recCodec GloEph.fields

/-! ### `Logger` and `StreamReader` -/

/-- utctime.h 120. -/
def MAX_TIME : Stamp := ⟨Int64.ofInt (2 ^ 63 - 1), 0⟩

/-- utctime.cxx 34-38 on stamps. -/
def Stamp.lt (a b : Stamp) : Bool :=
  Utc.lt ⟨a.sec.toInt, a.nsec.toInt⟩ ⟨b.sec.toInt, b.nsec.toInt⟩

/-- log_writer.h 96-110: the bytes `Logger::log` appends to the file of the stream. -/
def logRecord {δ : Type} [Codec δ] (r : Stamp × δ) : List UInt8 := Codec.enc r.1 ++ Codec.enc r.2

/-- The file after the records `rs` were logged. -/
def logFile {δ : Type} [Codec δ] (rs : List (Stamp × δ)) : List UInt8 := rs.flatMap logRecord

/-- log_writer.h 96-110: calls of `Logger::log` on initialised streams, in program order, each with
its key and a record of the type of that stream; `files` gives the contents of the file of each
key.  (The file is found by its name; keys with the same name are the subject of C27.) -/
def logCalls {T : Int → Type} [∀ k, Codec (T k)] :
    List ((k : Int) × (Stamp × T k)) → (Int → List UInt8) → (Int → List UInt8)
  | [], files => files
  | o :: os, files =>
    logCalls os fun k => if k = o.1 then files k ++ logRecord o.2 else files k

/-- log_reader.h 53-57. -/
structure Reader where
  file : IStream
  next : Stamp
deriving DecidableEq

/-- log_reader.h 44-52. -/
def Reader.readStamp (r : Reader) : Reader :=
  let a := Codec.dec r.file r.next.sec
  let b := Codec.dec a.2 r.next.nsec
  ⟨b.2, if b.2.eof then MAX_TIME else ⟨a.1, b.1⟩⟩

/-- log_reader.cxx 66-91: `StreamReader::open` on an existing file.  `init` is the value of
`next_stamp_` before. -/
def Reader.open (init : Stamp) (bytes : List UInt8) : Reader :=
  Reader.readStamp ⟨IStream.ofBytes bytes, init⟩

/-- log_reader.h 30-35: `StreamReader::get` into variables with the values `old`. -/
def Reader.get {δ : Type} [Codec δ] (old : δ) (r : Reader) : δ × Reader :=
  let d := Codec.dec r.file old
  (d.1, Reader.readStamp ⟨d.2, r.next⟩)

/-! ### `LogReader::read` -/

/-- log_reader.cxx 203-213: position of the stream with the least next stamp, by strict comparison
starting from `MAX_TIME`; `i` is the position of the head of the list. -/
def lowest {S : Type} (next : S → Stamp) :
    List S → Nat → Stamp × Option Nat → Stamp × Option Nat
  | [], _, acc => acc
  | s :: ss, i, acc =>
    lowest next ss (i + 1) (if (next s).lt acc.1 then (next s, some i) else acc)

/-- Replace the `i`-th entry. -/
def setAt {S : Type} (s : S) : Nat → List S → List S
  | _, [] => []
  | 0, _ :: l => s :: l
  | i + 1, a :: l => a :: setAt s i l

/-- log_reader.cxx 199-244: the loop of `LogReader::read`.  `streams` is the unordered map in its
iteration order, after removal of the streams without a callback; `next` is `nextStamp()`, `get`
what a callback does (it reads one record from the stream it is given); `maint` stands for all the
maintenance callbacks: from their state and the time of the next record it computes their new
state and whether `read` exits early.  The result lists the callbacks in order (key, stamp, data);
`none` means that the loop is still running after `fuel` rounds.  The progress bar is left out. -/
def readLoop {S P M : Type} (next : S → Stamp) (get : S → P × S) (maint : M → Stamp → M × Bool) :
    Nat → M → List (Int × S) → Option (List (Int × Stamp × P))
  | 0, _, _ => none
  | fuel + 1, m, streams =>
    match lowest (fun s => next s.2) streams 0 (MAX_TIME, none) with
    | (_, none) => some []
    | (t, some i) =>
      if t = MAX_TIME then some []
      else
        let e := maint m t
        if e.2 then some []
        else
          match streams[i]? with
          | none => none
          | some s =>
            let g := get s.2
            match readLoop next get maint fuel e.1 (setAt (s.1, g.2) i streams) with
            | none => none
            | some out => some ((s.1, t, g.1) :: out)

/-! ### File names -/

/-- Decimal digits of a natural number. -/
def digits (n : Nat) : List Char :=
  if n < 10 then [Char.ofNat (48 + n)] else digits (n / 10) ++ [Char.ofNat (48 + n % 10)]
termination_by n
decreasing_by omega

/-- `fmt::format("{}", key)`. -/
def showInt (k : Int) : List Char :=
  if k < 0 then '-' :: digits k.natAbs else digits k.natAbs

/-- `fmt`'s centred alignment with fill `c` and width `w`: half of the padding, rounded down, goes
to the left. -/
def centre (c : Char) (w : Nat) (l : List Char) : List Char :=
  let p := w - l.length
  List.replicate (p / 2) c ++ l ++ List.replicate (p - p / 2) c

/-- log_key.h 26-57: `logKeyName`; the file is this name with the extension `.log`
(log_writer.h 46, log_reader.cxx 126). -/
def logKeyName (key : Int) : List Char :=
  if key = 0 then "IMU_SAMPLE".toList
  else if key = 1 then "GNSS_OBS".toList
  else if key = 2 then "GPS_EPH".toList
  else if key = 3 then "GAL_EPH".toList
  else if key = 4 then "GLO_EPH".toList
  else if key = 5 then "TRUTH_POSE".toList
  else if key = 6 then "GPS_OBS_RESIDUAL".toList
  else if key = 7 then "GAL_OBS_RESIDUAL".toList
  else if key = 8 then "GLO_OBS_RESIDUAL".toList
  else if key = 9 then "POINT_POS_RESIDUAL".toList
  else if key = 10 then "FIX_AND_HOLD_RESIDUAL".toList
  else if key = 11 then "ESTIMATE".toList
  else "LOG_KEY_".toList ++ centre '0' 4 (showInt key)

end Verif.Log
