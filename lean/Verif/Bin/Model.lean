import Verif.Common

/-!
# Model of the binary vector and matrix files

`mml/base/Vector/Vector.h`, `mml/tools/serializer/MatrixIO.h`, `mml/tools/serializer/VectorIO.h`.

A file is a list of bytes.  The elements of a `std::vector` are contiguous, so a vector is represented
by the bytes of its storage, as `file.write` and `file.read` see it; `es` is `sizeof(Type)`.
The machine is little-endian (MMLBase.h:138: "All binary files use little-endian byte order").
-/

set_option autoImplicit false

namespace Verif.Bin

/-- One byte. -/
abbrev Byte := Fin 256

/-- The four bytes of a `uint32_t` in memory, least significant first.  The argument is the value
before conversion; `static_cast<uint32_t>` keeps it modulo 2^32. -/
def le32 (n : Nat) : List Byte :=
  [Fin.ofNat 256 n, Fin.ofNat 256 (n / 256), Fin.ofNat 256 (n / 65536), Fin.ofNat 256 (n / 16777216)]

/-- The `uint32_t` with these bytes in memory. -/
def of32 : List Byte → Nat
  | [a, b, c, d] => a.val + 256 * b.val + 65536 * c.val + 16777216 * d.val
  | _ => 0

/-- `std::ifstream` in binary mode: what is left to read, and the fail bit. -/
structure Stream where
  rest : List Byte
  fail : Bool := false

/-- `istream::read(p, n)`: the bytes stored at `p`.  A short read stores what there is and sets the
fail bit; a stream in the failed state stores nothing. -/
def Stream.read (s : Stream) (n : Nat) : List Byte × Stream :=
  if s.fail then ([], s)
  else if n ≤ s.rest.length then (s.rest.take n, { s with rest := s.rest.drop n })
  else (s.rest, { rest := [], fail := true })

/-- Reading into an uninitialised `uint32_t` variable: `none` when not all of its bytes were stored,
so that its value is indeterminate. -/
def Stream.readU32 (s : Stream) : Option Nat × Stream :=
  let (bs, s) := s.read 4
  (if bs.length = 4 then some (of32 bs) else none, s)

/-- Using a variable: undefined when its value is indeterminate. -/
def use : Option Nat → Outcome Nat
  | some n => .ret n
  | none => .ub

/-- Reading `n` bytes over existing storage: the bytes read replace the front of it. -/
def Stream.readOver (s : Stream) (n : Nat) (mem : List Byte) : List Byte × Stream :=
  let (bs, s) := s.read n
  (bs ++ mem.drop bs.length, s)

/-! ## Vector -/

/-- A `Vector<Type>`: the number of elements and the bytes of its storage. -/
structure Vec where
  size : Nat
  bytes : List Byte
  deriving DecidableEq

/-- `BinaryFormat::MAGIC_VECTOR` (MMLBase.h:142). -/
def magicVector : Nat := 0x4D4D4C56

/-- `BinaryFormat::VERSION_VECTOR` (MMLBase.h:149). -/
def versionVector : Nat := 1

/-- `Vector::SaveToBinary` (Vector.h:496-523), the content of the file written.  The file can always
be created in the model. -/
def saveVector (es : Nat) (v : Vec) : List Byte :=
  le32 magicVector ++ le32 versionVector ++ le32 v.size ++ le32 es ++
    (if v.size % 2 ^ 32 > 0 then v.bytes.take (v.size % 2 ^ 32 * es) else [])

/-- `std::vector::resize` on the storage: elements are kept, new ones are zero. -/
def resizeBytes (mem : List Byte) (n : Nat) : List Byte := mem.take n ++ List.replicate (n - mem.length) 0

/-- `Vector::LoadFromBinary` (Vector.h:529-570): the returned bool and the vector afterwards.
`out` is the vector passed in.  Memory is assumed to suffice for the declared size. -/
def loadVector (es : Nat) (file : List Byte) (out : Vec) : Outcome (Bool × Vec) := do
  let s : Stream := { rest := file }
  let (magic, s) := s.readU32
  let m ← use magic
  if m ≠ magicVector then return (false, out)
  else do
    let (version, s) := s.readU32
    let v ← use version
    if v ≠ versionVector then return (false, out)
    else do
      let (size, s) := s.readU32
      let (elemSize, s) := s.readU32
      let e ← use elemSize
      if e ≠ es then return (false, out)
      else do
        let n ← use size
        let mem := resizeBytes out.bytes (n * es)
        let mem := if n > 0 then (s.readOver (n * es) mem).1 else mem
        return (true, ⟨n, mem⟩)

/-! ## Matrix -/

/-- A `Matrix<Type>`: dimensions and the bytes of its row-major storage. -/
structure Mat where
  rows : Nat
  cols : Nat
  bytes : List Byte
  deriving DecidableEq

/-- `BinaryFormat::MAGIC_MATRIX` (MMLBase.h:141). -/
def magicMatrix : Nat := 0x4D4D4C4D

/-- `BinaryFormat::VERSION_MATRIX` (MMLBase.h:148). -/
def versionMatrix : Nat := 1

/-- `SaveMatrixToBinary` (MatrixIO.h:182-211). -/
def saveMatrix (es : Nat) (m : Mat) : List Byte :=
  le32 magicMatrix ++ le32 versionMatrix ++ le32 m.rows ++ le32 m.cols ++ le32 es ++ le32 0 ++
    m.bytes.take (m.rows * m.cols * es)

/-- `Matrix::Resize(rows, cols)` (Matrix.h:347-374) with `ValidateDimensions` (Matrix.h:107-122), for
positive dimensions and element types for which `Type{0}` is all zero bytes. -/
def resizeMat (es : Nat) (m : Mat) (rows cols : Nat) : Outcome Mat :=
  if rows = m.rows ∧ cols = m.cols then .ret m
  else if rows = 0 ∨ cols = 0 then .exn (.mml "MatrixDimensionError")
  else if rows > 100000 ∨ cols > 100000 then .exn (.mml "MatrixDimensionError")
  else if rows * cols > 100000000 then .exn .badAlloc
  else .ret ⟨rows, cols, List.replicate (rows * cols * es) 0⟩

/-- `LoadMatrixFromBinary` (MatrixIO.h:221-266). -/
def loadMatrix (es : Nat) (file : List Byte) (out : Mat) : Outcome (Bool × Mat) := do
  let s : Stream := { rest := file }
  let (magic, s) := s.readU32
  let m ← use magic
  if m ≠ magicMatrix then return (false, out)
  else do
    let (version, s) := s.readU32
    let v ← use version
    if v ≠ versionMatrix then return (false, out)
    else do
      let (rows, s) := s.readU32
      let (cols, s) := s.readU32
      let (elemSize, s) := s.readU32
      let (_, s) := s.readU32
      let e ← use elemSize
      if e ≠ es then return (false, out)
      else do
        let r ← use rows
        let c ← use cols
        if r = 0 ∨ c = 0 ∨ r > 100000 ∨ c > 100000 then return (false, out)
        else do
          let out ← resizeMat es out r c
          return (true, { out with bytes := (s.readOver (r * c * es) out.bytes).1 })

/-! ## Complex vector -/

/-- A `std::vector<std::complex<T>>`: its elements as the bytes of the real and of the imaginary
part. -/
abbrev CVec := List (List Byte × List Byte)

/-- `BinaryFormat::MAGIC_VECTOR_COMPLEX` (MMLBase.h:143). -/
def magicComplex : Nat := 0x4D4D4C43

/-- `BinaryFormat::VERSION_VECTOR_COMPLEX` (MMLBase.h:150). -/
def versionComplex : Nat := 1

/-- `SaveComplexVector` (VectorIO.h:47-81). -/
def saveComplex (es : Nat) (v : CVec) : List Byte :=
  le32 magicComplex ++ le32 versionComplex ++ le32 v.length ++ le32 es ++
    (v.map (·.1)).flatten ++ (v.map (·.2)).flatten

/-- The loops reading `count` scalars (VectorIO.h:136-146).  The storage starts as zeros. -/
def readParts (es : Nat) : Nat → Stream → List (List Byte) × Stream
  | 0, s => ([], s)
  | n + 1, s =>
    let (x, s) := s.readOver es (List.replicate es 0)
    let (xs, s) := readParts es n s
    (x :: xs, s)

/-- `LoadComplexVector` (VectorIO.h:89-156).  `tellg` is the number of bytes consumed, `-1` on a
failed stream (which cannot occur where it is called, since an earlier failure has already been
undefined behaviour). -/
def loadComplex (es : Nat) (file : List Byte) (out : CVec) : Outcome (Bool × CVec) := do
  let s : Stream := { rest := file }
  let (magic, s) := s.readU32
  let m ← use magic
  if m ≠ magicComplex then return (false, out)
  else do
    let (version, s) := s.readU32
    let v ← use version
    if v ≠ versionComplex then return (false, out)
    else do
      let (count, s) := s.readU32
      let (elemSize, s) := s.readU32
      let e ← use elemSize
      if e ≠ es then return (false, out)
      else do
        let n ← use count
        if s.rest.length < n * e * 2 then return (false, out)
        else do
          let (re, s) := readParts es n s
          let (im, _) := readParts es n s
          return (true, re.zip im)

/-- `LoadComplexAsReal` (VectorIO.h:199-211). -/
def loadComplexAsReal (es : Nat) (file : List Byte) (out : List (List Byte)) :
    Outcome (Bool × List (List Byte)) := do
  let (ok, v) ← loadComplex es file []
  if ok then return (true, v.map (·.1)) else return (false, out)

/-- `SaveRealAsComplex` (VectorIO.h:165-173); `T(0)` is `es` zero bytes. -/
def saveRealAsComplex (es : Nat) (v : List (List Byte)) : List Byte :=
  saveComplex es (v.map (fun x => (x, List.replicate es 0)))

end Verif.Bin
