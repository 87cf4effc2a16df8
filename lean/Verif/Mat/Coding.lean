import Verif.Mat.Storage

/-!
# Model of the stored form of attitudes, coordinates and body frames, and of the encoding assertions
-/

namespace Verif.Mat

/-! ## The encoding assertions (`crates/aether_test/src/assert/coding.rs`) -/

/-- Whether 64 bits are a NaN: exponent all ones, fraction not zero. -/
def nan64 (b : BitVec 64) : Bool := (0x7FF0000000000000#64).ult (b &&& 0x7FFFFFFFFFFFFFFF#64)

/-- `==` of `f64` on bit patterns: false with a NaN, and the two zeros are equal. -/
def eq64 (a b : BitVec 64) : Bool :=
  !nan64 a && !nan64 b && (a == b || (a <<< 1 == 0#64 && b <<< 1 == 0#64))

/-- The three ways the assertions panic. -/
inductive CodingPanic
  | encode
  | decode
  | differ
  deriving DecidableEq

/-- `crates/aether_test/src/assert/coding.rs:11-22` `assert_vector_equivalence`, for any scalar codec in the
place of bincode's: `encode_into_slice` fails if the bytes do not fit the buffer of 1024 (the buffer itself
is not modelled), the bytes are decoded, and `assert_eq!` compares with the derived `PartialEq` of `Vector`. -/
def assertVec (c : Codec (BitVec 64)) {n : Nat} (v : Fin n → BitVec 64) : Except CodingPanic Unit :=
  if 1024 < (encodeVec c v).length then .error .encode
  else match decodeVec c n (encodeVec c v) with
    | none => .error .decode
    | some (w, _) => if (List.finRange n).all (fun i => eq64 (v i) (w i)) then .ok () else .error .differ

/-- `crates/aether_test/src/assert/coding.rs:25-42` `assert_quaternion_equivalence`: a quaternion is encoded
as its four numbers (`attitude/quaternion.rs:10-17`, derived; the frame markers have no bytes and are always
equal). -/
def assertQuat (c : Codec (BitVec 64)) (q : Fin 4 → BitVec 64) : Except CodingPanic Unit := assertVec c q

/-! ## bincode -/

variable {T : Type*}

/-- `reference_frame/body.rs:11-17` and `reference_frame/asm.rs:8-14`: a body frame. The type parameter of
its coordinates is a marker. -/
structure BodyFrame (T : Type*) where
  massCenter : Fin 3 → T
  leverArm : Fin 3 → T

/-- `reference_frame/body.rs:9`: the derived `Encode` of `Body`: its two coordinates one after the other,
each as its vector (`coordinate/cartesian.rs:11-16`). -/
def encodeBody (c : Codec T) (b : BodyFrame T) : List UInt8 :=
  encodeVec c b.massCenter ++ encodeVec c b.leverArm

/-- `reference_frame/body.rs:9`: the derived `Decode` of `Body`. -/
def decodeBody (c : Codec T) (bs : List UInt8) : Option (BodyFrame T × List UInt8) :=
  match decodeVec c 3 bs with
  | none => none
  | some (m, bs) =>
    match decodeVec c 3 bs with
    | none => none
    | some (l, bs) => some (⟨m, l⟩, bs)

/-! ## serde -/

/-- The serde data model with what these types use: scalars, the unit of a marker, sequences and records
(as maps from field names). -/
inductive DVal (T : Type*) where
  | leaf : T → DVal T
  | unit : DVal T
  | seq : List (DVal T) → DVal T
  | map : List (String × DVal T) → DVal T

/-- Deserialising one scalar. -/
def DVal.scalar? : DVal T → Option T
  | .leaf v => some v
  | _ => none

/-- Deserialising a `PhantomData`: only the unit is accepted. -/
def DVal.marker : DVal T → Bool
  | .unit => true
  | _ => false

/-- `math/vector.rs:684-695` `Serialize for Vector`. -/
def dserVec {n : Nat} (v : Fin n → T) : DVal T := .seq ((List.finRange n).map fun i => .leaf (v i))

/-- `math/vector.rs:698-735` `Deserialize for Vector` (no check for a further element). -/
def ddeVec (n : Nat) : DVal T → Option (Fin n → T)
  | .seq xs => (visitN DVal.scalar? n xs).map (·.1)
  | _ => none

/-- `math/matrix.rs:1273-1305` `Serialize for Matrix`. -/
def dserMat {m n : Nat} (a : Mat T m n) : DVal T := .seq ((List.finRange m).map fun r => dserVec (a r))

/-- `math/matrix.rs:1316-1380` `RowSeed`: with the check for a further element. -/
def ddeRow (n : Nat) : DVal T → Option (Fin n → T)
  | .seq xs => checkEnd (visitN DVal.scalar? n xs)
  | _ => none

/-- `math/matrix.rs:1308-1434` `Deserialize for Matrix`. -/
def ddeMat (m n : Nat) : DVal T → Option (Mat T m n)
  | .seq xs => checkEnd (visitN (ddeRow n) m xs)
  | _ => none

/-- `coordinate/cartesian.rs:418-425` `Serialize for Cartesian`: as its vector. -/
def serCart (v : Fin 3 → T) : DVal T := dserVec v

/-- `coordinate/cartesian.rs:428-439` `Deserialize for Cartesian`. -/
def deCart (x : DVal T) : Option (Fin 3 → T) := ddeVec 3 x

/-- `reference_frame/body.rs:46-56` and `reference_frame/asm.rs:47-57`: a pair. -/
def serBody (b : BodyFrame T) : DVal T := .seq [serCart b.massCenter, serCart b.leverArm]

/-- `reference_frame/body.rs:59-74` and `reference_frame/asm.rs:60-75`: the pair is read with serde's visitor
for tuples, which reads two elements and does not look for a third. -/
def deBody : DVal T → Option (BodyFrame T)
  | .seq (m :: l :: _) =>
    match deCart m with
    | none => none
    | some m =>
      match deCart l with
      | none => none
      | some l => some ⟨m, l⟩
  | _ => none

/-- The derived `Serialize` of `Quaternion` (`attitude/quaternion.rs:12-17`), `Euler`
(`attitude/euler.rs:12-17`) and `DirectionCosineMatrix` (`attitude/dcm.rs:10-15`): a record with the fields
`data`, `_from` and `_to`, of which the last two are markers. Formats without field names store a sequence
instead. -/
def serAttitude (named : Bool) (data : DVal T) : DVal T :=
  if named then .map [("data", data), ("_from", .unit), ("_to", .unit)] else .seq [data, .unit, .unit]

/-- The loop of the derived `visit_map`: every field at most once, fields of other names are skipped, and at
the end all three must be there. -/
def visitFields {β : Type*} (de : DVal T → Option β) :
    List (String × DVal T) → Option β → Bool → Bool → Option β
  | [], d, f, t => if f && t then d else none
  | (k, x) :: rest, d, f, t =>
    if k = "data" then
      match d with
      | some _ => none
      | none =>
        match de x with
        | none => none
        | some b => visitFields de rest (some b) f t
    else if k = "_from" then
      if f then none else if x.marker then visitFields de rest d true t else none
    else if k = "_to" then
      if t then none else if x.marker then visitFields de rest d f true else none
    else visitFields de rest d f t

/-- The derived `Deserialize` of the same types: from a record (`visit_map`) or from a sequence
(`visit_seq`, which reads three elements). -/
def deAttitude {β : Type*} (de : DVal T → Option β) : DVal T → Option β
  | .map kvs => visitFields de kvs none false false
  | .seq (d :: f :: t :: _) =>
    match de d with
    | none => none
    | some b => if f.marker && t.marker then some b else none
  | _ => none

end Verif.Mat
