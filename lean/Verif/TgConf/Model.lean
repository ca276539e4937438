import Verif.TgTlm.Model
/-!
# The configuration parser of the traffic generator

Models `/repo/traffic-generators/config-parser/parser.cc` and `deserializer.cc` between
the structure `DataTransfer` and the document object model of a JSON text. The text
itself (rapidjson's writer and reader, the file) is not modelled: a document is written
and read back as itself. The regular expressions are modelled by hand; `^` and `$` match
at the ends of the text only, and texts hold no newline and no NUL. Members of an object
are found by name, the first one if there are several. A failed assertion of rapidjson
and a division by zero are `none`.
-/

namespace Verif.TgConf
open Verif Verif.TgTlm

/-- A JSON document. `num`: an integer in `[0, 2^64)`; `other`: any other number. -/
inductive Json where
  | null
  | bool (b : Bool)
  | num (n : Nat)
  | other
  | str (s : List Char)
  | arr (l : List Json)
  | obj (m : List (String × Json))

/-- `HasMember` and `operator[]`. -/
def member (m : List (String × Json)) (k : String) : Option Json :=
  (m.find? (·.1 == k)).map (·.2)

/-! ## Texts of numbers -/

/-- `[[:blank:]]` -/
def isBlank (c : Char) : Bool := c == ' ' || c == '\t'

/-- `trimSpace` (deserializer.cc 259-280) -/
def trim (s : List Char) : List Char := ((s.dropWhile isBlank).reverse.dropWhile isBlank).reverse

/-- `stringSpliter` (282-295): `getline` until the text is used up; nothing after the last
delimiter is no token. -/
def splitOn (d : Char) : List Char → List Char → List (List Char)
  | acc, [] => if acc.isEmpty then [] else [trim acc.reverse]
  | acc, c :: r => if c = d then trim acc.reverse :: splitOn d [] r else splitOn d (c :: acc) r

/-- The digit a character stands for, as `strtoull` reads it. -/
def digit (c : Char) : Option Nat :=
  if '0' ≤ c ∧ c ≤ '9' then some (c.toNat - 48)
  else if 'a' ≤ c ∧ c ≤ 'f' then some (c.toNat - 87)
  else if 'A' ≤ c ∧ c ≤ 'F' then some (c.toNat - 55)
  else none

def isDec (c : Char) : Bool := '0' ≤ c && c ≤ '9'
def isHex (c : Char) : Bool := (digit c).isSome
def isX (c : Char) : Bool := c == 'x' || c == 'X'

/-- `^0(?=x|X)(x|X){1}(?=[0-9a-fA-F])[0-9a-fA-F]+`: the digits after `0x`. -/
def hexMatch : List Char → Option (List Char)
  | c :: x :: r => if c = '0' ∧ isX x = true ∧ r.takeWhile isHex ≠ [] then some (r.takeWhile isHex) else none
  | _ => none

/-- `^[0-9]+(?!x|X)`: as many digits as there are, one less if an `x` follows them. -/
def decMatch (s : List Char) : Option (List Char) :=
  let d := s.takeWhile isDec
  let d := if ((s.dropWhile isDec).head?.map isX).getD false then d.dropLast else d
  if d = [] then none else some d

/-- `strtoull` of digits: the largest number if it is too large. -/
def strtoull (base : Nat) (ds : List Char) : Nat :=
  min (ds.foldl (fun a c => a * base + (digit c).getD 0) 0) (2 ^ 64 - 1)

/-- The two patterns tried in turn (deserializer.cc 835-846, 906-923 and the like). -/
def number (s : List Char) : Option Nat :=
  match hexMatch s with
  | some ds => some (strtoull 16 ds)
  | none =>
    match decMatch s with
    | some ds => some (strtoull 10 ds)
    | none => none

/-! ## Policies -/

inductive Policy where
  | random
  | discrete
  | string
  deriving DecidableEq, Repr

/-- `^[[:blank:]]*(name){1}[[:blank:]]*\({1}.{0,}\){1}` (252-254) -/
def annotated (name : List Char) (s : List Char) : Bool :=
  let t := s.dropWhile isBlank
  name.isPrefixOf t &&
    match (t.drop name.length).dropWhile isBlank with
    | c :: r => c == '(' && r.contains ')'
    | [] => false

/-- `getPolicy` (309-336). The third pattern matches the empty text, so every text. -/
def policy (s : List Char) : Policy :=
  if annotated "@Random".toList s then .random
  else if annotated "@Discrete".toList s then .discrete
  else .string

/-- `RandomInflator`'s members (deserializer.h 129-132); the unused range is left out. -/
structure Params where
  seed : Nat
  size : Nat
  lBound : Nat
  uBound : Nat
  deriving DecidableEq, Repr

/-- What random values depend on. `params`: the effect of the parameter list on the
defaults (`getParams`, 600-612; not modelled further). `next seed i`: the `i`-th `rand()`
after `srand (seed)`. `time`: `time(0)`. -/
structure Rand where
  params : List Char → Params → Params
  next : Nat → Nat → Nat
  time : Nat

def infix? (p : List Char) : List Char → Bool
  | [] => p.isEmpty
  | c :: r => p.isPrefixOf (c :: r) || infix? p r

/-- `getParamList` (574-594): throws unless `@Random(` is found. -/
def hasList (s : List Char) : Bool := infix? "@Random(".toList s

/-- `rand() % uBound + lBound` in 64 bits; division by zero is `none`. -/
def draw (R : Rand) (p : Params) (i : Nat) : Option Nat :=
  if p.uBound = 0 then none else some ((R.next (p.seed % 2 ^ 32) i % p.uBound + p.lBound) % 2 ^ 64)

/-! ## Values

Outer `none`: undefined. Inner `none`: `deserialize` returns false. -/

inductive Width where
  | u8
  | u32
  | u64
  deriving DecidableEq, Repr

def Width.bits : Width → Nat
  | .u8 => 8
  | .u32 => 32
  | .u64 => 64

/-- `RandomInflator::inflate` of a number (686-779). -/
def randNum (R : Rand) (w : Width) (s : List Char) : Option Nat :=
  let p := R.params s { seed := R.time, size := 0, lBound := 0, uBound := if w = .u8 then 0xff else 0xffffffff }
  match w with
  | .u64 =>
    match draw R p 0, draw R p 1 with
    | some a, some b => some ((a <<< 32) % 2 ^ 64 ||| b)
    | _, _ => none
  | _ => (draw R p 0).map (· % 2 ^ w.bits)

/-- `deserialize` of a number (42-162, 890-1000). -/
def readNum (R : Rand) (w : Width) (s : List Char) : Option (Option Nat) :=
  if s = [] then some none
  else
    match policy s with
    | .random => if hasList s then (randNum R w s).map some else some none
    | .discrete => some none
    | .string => some ((number (trim s)).map (· % 2 ^ w.bits))

/-- Whether the text begins with the word, upper and lower case alike. -/
def startsWith (w s : List Char) : Bool := w.isPrefixOf (s.map Char.toLower)

/-- `deserialize` of a boolean (164-202, 657-680, 859-888). -/
def readBool (R : Rand) (s : List Char) : Option (Option Bool) :=
  if s = [] then some none
  else
    match policy s with
    | .random =>
      if hasList s then (draw R (R.params s { seed := R.time, size := 0, lBound := 0, uBound := 1 }) 0).map (fun v => some (v != 0))
      else some none
    | .discrete => some none
    | .string =>
      if startsWith "true".toList (trim s) then some (some true)
      else if startsWith "false".toList (trim s) then some (some false)
      else some none

/-- The loop of `StringInflator::inflate` (833-854) over an array of `n` bytes: what each
byte is afterwards, `none` if not written. -/
def fill : Nat → List (List Char) → List (Option Byte)
  | 0, _ => []
  | n + 1, [] => List.replicate (n + 1) none
  | n + 1, t :: ts =>
    match number t with
    | some v => some (BitVec.ofNat 8 v) :: fill n ts
    | none => List.replicate (n + 1) none

/-- The loop of `RandomInflator::inflate` (642-648). -/
def randFill (R : Rand) (p : Params) (n : Nat) : Option (List (Option Byte)) :=
  if min p.size n ≠ 0 ∧ p.uBound = 0 then none
  else some ((List.range n).map (fun i => if i < min p.size n then (draw R p i).map (BitVec.ofNat 8) else none))

/-- `deserialize` of an array of `n` bytes (204-245, 619-651, 812-857). -/
def readBytes (R : Rand) (n : Nat) (s : List Char) : Option (Option (List (Option Byte))) :=
  if s = [] ∨ n = 0 then some none
  else
    match policy s with
    | .random =>
      if hasList s then (randFill R (R.params s { seed := R.time, size := 0, lBound := 0, uBound := 0xff }) n).map some
      else some none
    | .discrete => some none
    | .string => some (some (fill n (splitOn ',' [] s)))

/-! ## `jsonArrayToString` (parser.cc 572-599) -/

/-- `std::hex <<` of an unsigned number. -/
def hex (n : Nat) : List Char := Nat.toDigits 16 n

/-- The text of the elements, and the errors set. -/
def arrString : List Json → List Char × List Nat
  | [] => ([], [])
  | .str s :: r => (s ++ [',', ' '] ++ (arrString r).1, (arrString r).2)
  | .num n :: r => if n < 2 ^ 32 then (hex n ++ [',', ' '] ++ (arrString r).1, (arrString r).2) else ((arrString r).1, 26 :: (arrString r).2)
  | _ :: r => ((arrString r).1, 26 :: (arrString r).2)

/-! ## `deserializeSingleObject` (parser.cc 607-1157)

Each field gives a value and the errors set by `setLastError`. -/

/-- A number in `ext.gen_attr` (841-863, 941-982, 1114-1150): codes if it is absent and if
it is of another kind. A JSON number is cut to the width of the field. -/
def attrNum (R : Rand) (w : Width) (g : List (String × Json)) (k : String) (absent wrong : Nat) : Option (Nat × List Nat) :=
  match member g k with
  | none => some (0, [absent])
  | some (.num n) =>
    if w = .u64 then some (n, []) else if n < 2 ^ 32 then some (n % 2 ^ w.bits, []) else some (0, [wrong])
  | some (.str s) => (readNum R w s).map (fun v => (v.getD 0, []))
  | some _ => some (0, [wrong])

/-- A boolean in `ext.gen_attr` (822-839, 865-939, 984-1112). -/
def attrBool (R : Rand) (g : List (String × Json)) (k : String) (absent wrong : Nat) : Option (Bool × List Nat) :=
  match member g k with
  | none => some (false, [absent])
  | some (.bool b) => some (b, [])
  | some (.str s) => (readBool R s).map (fun v => (v.getD false, []))
  | some _ => some (false, [wrong])

/-- `ext.gen_attr` (820-1151). `snoop`, `domain`, `barrier` and `is_read` are never read. -/
def readAttr (R : Rand) (g : List (String × Json)) : Option (Attr × List Nat) := do
  let (enabled, e1) ← attrBool R g "enabled" 18 37
  let (masterId, e2) ← attrNum R .u64 g "master_id" 19 36
  let (_, e3) ← attrBool R g "secure" 20 35
  let (secure, e4) ← attrBool R g "secure" 20 35
  let (eop, e5) ← attrBool R g "eop" 21 34
  let (wrap, e6) ← attrBool R g "wrap" 62 63
  let (burstWidth, e7) ← attrNum R .u32 g "burst_width" 38 39
  let (transactionId, e8) ← attrNum R .u32 g "transaction_id" 40 41
  let (exclusive, e9) ← attrBool R g "exclusive" 42 43
  let (locked, e10) ← attrBool R g "locked" 44 45
  let (bufferable, e11) ← attrBool R g "bufferable" 46 47
  let (modifiable, e12) ← attrBool R g "modifiable" 53 54
  let (readAllocate, e13) ← attrBool R g "read_allocate" 55 56
  let (writeAllocate, e14) ← attrBool R g "write_allocate" 57 58
  let (qos, e15) ← attrNum R .u8 g "qos" 48 49
  let (region, e16) ← attrNum R .u8 g "region" 50 51
  some ({ enabled, masterId, secure, eop, wrap, burstWidth, transactionId, exclusive, locked, bufferable,
          modifiable, readAllocate, writeAllocate, qos, region },
        e1 ++ e2 ++ e3 ++ e4 ++ e5 ++ e6 ++ e7 ++ e8 ++ e9 ++ e10 ++ e11 ++ e12 ++ e13 ++ e14 ++ e15 ++ e16)

/-- `ext` (796-1154) -/
def readExt (R : Rand) (m : List (String × Json)) : Option (Attr × List Nat) :=
  match member m "ext" with
  | none => some ({}, [14])
  | some (.obj e) =>
    match member e "gen_attr" with
    | none => some ({}, [16])
    | some (.obj g) => readAttr R g
    | some _ => some ({}, [17])
  | some _ => some ({}, [15])

/-- `addr` (617-631) -/
def readAddr (R : Rand) (m : List (String × Json)) : Option (Nat × List Nat) :=
  match member m "addr" with
  | none => some (0, [3])
  | some (.num n) => some (n, [])
  | some (.str s) => (readNum R .u64 s).map (fun v => (v.getD 0, []))
  | some _ => some (0, [25])

/-- `cmd` (633-652) -/
def readCmd (m : List (String × Json)) : Nat × List Nat :=
  match member m "cmd" with
  | none => (0, [4])
  | some (.str s) => if s = ['W'] ∨ s = ['w'] then (1, []) else if s = ['R'] ∨ s = ['r'] then (0, []) else (0, [61])
  | some (.num n) => if n < 2 ^ 32 then (n, []) else (0, [29])
  | some _ => (0, [29])

/-- `data`, `byte_enable`, `expect` (654-677, 701-723, 770-794) -/
def readArr (R : Rand) (m : List (String × Json)) (k : String) (absent wrong : Nat) :
    Option (Option (List (Option Byte)) × List Nat) :=
  match member m k with
  | none => some (none, [absent])
  | some (.arr a) => (readBytes R a.length (arrString a).1).map (fun v => (v, (arrString a).2))
  | some _ => some (none, [wrong])

/-- `length` (679-698): the size of `data` is asked for if there is such a member. -/
def readLength (R : Rand) (m : List (String × Json)) : Option (Nat × List Nat) :=
  match member m "length" with
  | none => some (0, [7])
  | some (.num n) =>
    if n < 2 ^ 32 then
      match member m "data" with
      | none => some (n, [])
      | some (.arr a) => some (n, if a.length = n then [] else [33])
      | some _ => none
    else some (0, [29])
  | some (.str s) => (readNum R .u32 s).map (fun v => (v.getD 0, []))
  | some _ => some (0, [29])

/-- `byte_enable_length` (728-748): the size of `byte_enable` is asked for in any case. -/
def readBeLength (R : Rand) (m : List (String × Json)) : Option (Nat × List Nat) :=
  match member m "byte_enable_length" with
  | none => some (0, [10])
  | some (.num n) =>
    if n < 2 ^ 32 then
      match member m "byte_enable" with
      | some (.arr a) => some (n, if a.length = n then [] else [32])
      | _ => none
    else some (0, [30])
  | some (.str s) => (readNum R .u32 s).map (fun v => (v.getD 0, []))
  | some _ => some (0, [30])

/-- `streaming_width` (750-768): a text is read if `byte_enable_length` is one. -/
def readSw (R : Rand) (m : List (String × Json)) : Option (Nat × List Nat) :=
  let notNum (s : Option (List Char)) : Option (Nat × List Nat) :=
    match member m "byte_enable_length" with
    | none => none
    | some (.str _) =>
      match s with
      | none => none
      | some s => (readNum R .u32 s).map (fun v => (v.getD 0, []))
    | some _ => some (0, [31])
  match member m "streaming_width" with
  | none => some (0, [11])
  | some (.num n) => if n < 2 ^ 32 then some (n, []) else notNum none
  | some (.str s) => notNum (some s)
  | some _ => notNum none

/-- What is read: bytes not written are `none`. -/
structure Parsed where
  addr : Nat
  cmd : Nat
  data : Option (List (Option Byte))
  length : Nat
  byteEnable : Option (List (Option Byte))
  byteEnableLength : Nat
  sw : Nat
  expect : Option (List (Option Byte))
  attr : Attr
  deriving DecidableEq, Repr

/-- `deserializeSingleObject` of an object (607-1157): it returns true; the transfer and
the errors set, in order. -/
def single (R : Rand) (m : List (String × Json)) : Option (Parsed × List Nat) := do
  let (addr, e1) ← readAddr R m
  let (cmd, e2) := readCmd m
  let (data, e3) ← readArr R m "data" 5 6
  let (length, e4) ← readLength R m
  let (byteEnable, e5) ← readArr R m "byte_enable" 8 9
  let (byteEnableLength, e6) ← readBeLength R m
  let (sw, e7) ← readSw R m
  let (expect, e8) ← readArr R m "expect" 12 13
  let (attr, e9) ← readExt R m
  some ({ addr, cmd, data, length, byteEnable, byteEnableLength, sw, expect, attr },
        e1 ++ e2 ++ e3 ++ e4 ++ e5 ++ e6 ++ e7 ++ e8 ++ e9)

/-- What a call of `Deserialize` leaves: the result, the transfers, the errors set. -/
structure Result where
  ok : Bool
  dts : List Parsed
  errs : List Nat
  deriving DecidableEq, Repr

/-- `getLastError` (144-146) -/
def Result.lastError (r : Result) : Nat := r.errs.getLast?.getD 0

/-- `Deserialize` of one transfer (403-482), the text being a document or (`none`) not. -/
def deserialize (R : Rand) : Option Json → Option Result
  | none => some { ok := false, dts := [], errs := [1] }
  | some (.obj m) => (single R m).map (fun r => { ok := true, dts := [r.1], errs := r.2 })
  | some _ => some { ok := false, dts := [], errs := [2] }

/-- The loop over the entries (349-386). -/
def entries (R : Rand) : Bool → List Json → Option Result
  | b, [] => some { ok := b, dts := [], errs := [] }
  | _, .obj m :: r => do
    let p ← single R m
    let u ← entries R true r
    some { u with dts := p.1 :: u.dts, errs := p.2 ++ u.errs }
  | _, _ :: r => do
    let u ← entries R false r
    some { u with errs := 24 :: u.errs }

/-- `Deserialize` of a vector of transfers (262-397). -/
def deserializeVec (R : Rand) : Option Json → Option Result
  | none => some { ok := false, dts := [], errs := [1] }
  | some (.obj m) =>
    match member m "dataTransfers" with
    | none => some { ok := false, dts := [], errs := [22] }
    | some (.arr a) => entries R true a
    | some _ => some { ok := false, dts := [], errs := [23] }
  | some _ => some { ok := false, dts := [], errs := [2] }

/-! ## `serializeSingleObject` (484-565) -/

/-- `to_hex` (114-121) -/
def toHex (n : Nat) : List Char := '0' :: 'x' :: hex n

def bytesJson (l : List Byte) : Json := .arr (l.map (fun b => .str (toHex b.toNat)))

def attrJson (a : Attr) : Json :=
  .obj [("enabled", .bool a.enabled), ("master_id", .num a.masterId), ("secure", .bool a.secure), ("eop", .bool a.eop),
        ("wrap", .bool a.wrap), ("burst_width", .num a.burstWidth), ("transaction_id", .num a.transactionId),
        ("exclusive", .bool a.exclusive), ("locked", .bool a.locked), ("bufferable", .bool a.bufferable),
        ("modifiable", .bool a.modifiable), ("read_allocate", .bool a.readAllocate),
        ("write_allocate", .bool a.writeAllocate), ("qos", .num a.qos), ("region", .num a.region)]

/-- The members written; `none` if an array is shorter than its length, or null. -/
def serializeMembers (x : Xfer) : Option (List (String × Json)) :=
  match bytes x.data x.length, bytes x.byteEnable x.byteEnableLength, bytes x.expect x.length with
  | some d, some be, some e =>
    some [("addr", .str (toHex x.addr)), ("cmd", .num x.cmd), ("data", bytesJson d), ("length", .num x.length),
          ("byte_enable", bytesJson be), ("byte_enable_length", .num x.byteEnableLength),
          ("streaming_width", .num x.sw), ("expect", bytesJson e), ("ext", .obj [("gen_attr", attrJson x.attr)])]
  | _, _, _ => none

/-- `Serialize` of one transfer (155-200), of the document written. -/
def serialize (x : Xfer) : Option Json := (serializeMembers x).map .obj

/-- `Serialize` of a vector (207-260). -/
def serializeVec (xs : List Xfer) : Option Json :=
  (xs.mapM serializeMembers).map (fun l => .obj [("dataTransfers", .arr (l.map .obj))])

/-! ## Descriptions of errors (46-110, 148-150) -/

/-- What the text of each entry of `ErrorCodes` is about: the code in the enumeration
(parser.h 52-118) of which it is the description. Entry 51 is two texts run into one,
for a missing comma (98-99): given as the first. -/
def errorTable : List Nat :=
  List.range 21 ++ [22, 23, 24, 25, 26, 27, 28, 29, 30, 31, 32, 33, 34, 35, 36, 37, 38, 39, 40, 41, 42, 43, 44, 45, 46, 47,
    48, 49, 50, 51, 52, 54, 55, 56, 57, 58, 59, 61, 62, 63, 60]

/-- `getLastErrorDescription`: which error is described; `none`: past the end. -/
def describe (e : Nat) : Option Nat := errorTable[e]?

end Verif.TgConf
