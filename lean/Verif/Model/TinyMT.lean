import Verif.Model.Basic
/-
Model of src/tinymt64.h and src/tinymt64.cc: the random number generator of crossprob_mc.
`uint64_t` is `BitVec 64` (wrap-around arithmetic), `uint32_t` is `BitVec 32`.
-/
namespace CP

/-- Conversions between bit patterns, integers and floating point numbers that `FOps` lacks. -/
class FBits (F : Type) where
  /-- reading a 64-bit pattern as a `double` (the union in tinymt64.h:135-138) -/
  ofBits : BitVec 64 → F
  /-- the integer obtained by dropping the fractional part; `none` for NaN and infinities -/
  trunc : F → Option Int

/-- `struct TINYMT64_T`.  src/tinymt64.h:60-65 -/
structure TinyMT where
  status0 : BitVec 64
  status1 : BitVec 64
  mat1 : BitVec 32
  mat2 : BitVec 32
  tmat : BitVec 64
deriving DecidableEq

/-- `TINYMT64_MASK`.  src/tinymt64.h:50 -/
def tinymtMask : BitVec 64 := 0x7fffffffffffffff

/-- `-((int64_t)(x & 1))`: all ones if `x` is odd, else zero.  src/tinymt64.h:105-106, 123, 145 -/
def oddMask (x : BitVec 64) : BitVec 64 := -(x &&& 1)

/-- `tinymt64_next_state`.  src/tinymt64.h:94-107 -/
def TinyMT.nextState (r : TinyMT) : TinyMT :=
  let s0 := r.status0 &&& tinymtMask
  let x := s0 ^^^ r.status1
  let x := x ^^^ (x <<< 12)
  let x := x ^^^ (x >>> 32)
  let x := x ^^^ (x <<< 32)
  let x := x ^^^ (x <<< 11)
  { r with
    status0 := r.status1 ^^^ (oddMask x &&& r.mat1.zeroExtend 64)
    status1 := x ^^^ (oddMask x &&& (r.mat2.zeroExtend 64 <<< 32)) }

/-- `tinymt64_temper` (without LINEARITY_CHECK).  src/tinymt64.h:115-125 -/
def TinyMT.temper (r : TinyMT) : BitVec 64 :=
  let x := r.status0 + r.status1
  let x := x ^^^ (r.status0 >>> 8)
  x ^^^ (oddMask x &&& r.tmat)

/-- The bits of `tinymt64_temper_conv`.  src/tinymt64.h:133-148 -/
def TinyMT.temperConvBits (r : TinyMT) : BitVec 64 :=
  let x := r.status0 + r.status1
  let x := x ^^^ (r.status0 >>> 8)
  ((x ^^^ (oddMask x &&& r.tmat)) >>> 12) ||| 0x3ff0000000000000

/-- The bits of `tinymt64_temper_conv_open`.  src/tinymt64.h:156-171 -/
def TinyMT.temperConvOpenBits (r : TinyMT) : BitVec 64 :=
  let x := r.status0 + r.status1
  let x := x ^^^ (r.status0 >>> 8)
  ((x ^^^ (oddMask x &&& r.tmat)) >>> 12) ||| 0x3ff0000000000001

/-- `tinymt64_generate_uint64`.  src/tinymt64.h:178-181 -/
def TinyMT.generateUint64 (r : TinyMT) : BitVec 64 × TinyMT := (r.nextState.temper, r.nextState)

variable {F : Type} [FOps F] [FBits F]

/-- `tinymt64_generate_double`: the 64-bit integer converted to `double`, times `TINYMT64_MUL`.
src/tinymt64.h:51, 189-192 -/
def TinyMT.generateDouble (r : TinyMT) : F × TinyMT :=
  (FOps.mul (FOps.ofInt r.nextState.temper.toNat) (FOps.div FOps.one (FOps.ofInt (2 ^ 64))), r.nextState)

/-- `tinymt64_generate_double12`.  src/tinymt64.h:211-214 -/
def TinyMT.generateDouble12 (r : TinyMT) : F × TinyMT :=
  (FBits.ofBits r.nextState.temperConvBits, r.nextState)

/-- `tinymt64_generate_doubleOC`.  src/tinymt64.h:222-225 -/
def TinyMT.generateDoubleOC (r : TinyMT) : F × TinyMT :=
  (FOps.sub (FOps.ofInt 2) (FBits.ofBits r.nextState.temperConvBits), r.nextState)

/-- `tinymt64_generate_doubleOO`.  src/tinymt64.h:233-236 -/
def TinyMT.generateDoubleOO (r : TinyMT) : F × TinyMT :=
  (FOps.sub (FBits.ofBits r.nextState.temperConvOpenBits) FOps.one, r.nextState)

/-- `tinymt64_generate_double01`.  src/tinymt64.h:200-203 -/
def TinyMT.generateDouble01 (r : TinyMT) : F × TinyMT :=
  let r := r.nextState
  (FOps.sub (FBits.ofBits r.temperConvBits) FOps.one, r)

/-- `period_certification`.  src/tinymt64.cc:69-75 -/
def TinyMT.periodCertification (r : TinyMT) : TinyMT :=
  if r.status0 &&& tinymtMask = 0 ∧ r.status1 = 0 then
    { r with status0 := BitVec.ofNat 64 'T'.toNat, status1 := BitVec.ofNat 64 'M'.toNat }
  else r

/-- The scrambling function of the initialisation loop.  src/tinymt64.cc:87-89 -/
def initMix (i : Nat) (y : BitVec 64) : BitVec 64 :=
  BitVec.ofNat 64 i + 6364136223846793005 * (y ^^^ (y >>> 62))

/-- One iteration of the initialisation loop: `status[i & 1] ^= ...status[(i - 1) & 1]...`.
src/tinymt64.cc:86-90 -/
def TinyMT.initStep (i : Nat) (r : TinyMT) : TinyMT :=
  if i % 2 = 1 then { r with status1 := r.status1 ^^^ initMix i r.status0 }
  else { r with status0 := r.status0 ^^^ initMix i r.status1 }

/-- `tinymt64_init`: `MIN_LOOP` is 8, so `i` runs over 1..7.  `mat1`, `mat2`, `tmat` are whatever the
structure contained before (crossprob_mc.cc never sets them).  src/tinymt64.cc:83-92 -/
def TinyMT.init (junk : TinyMT) (seed : BitVec 64) : TinyMT :=
  let r : TinyMT := { junk with
    status0 := seed ^^^ (junk.mat1.zeroExtend 64 <<< 32)
    status1 := junk.mat2.zeroExtend 64 ^^^ junk.tmat }
  ((List.range' 1 7).foldl (fun r i => r.initStep i) r).periodCertification

/-- `ini_func1`.  src/tinymt64.cc:51-53 -/
def iniFunc1 (x : BitVec 64) : BitVec 64 := (x ^^^ (x >>> 59)) * 2173292883993
/-- `ini_func2`.  src/tinymt64.cc:61-63 -/
def iniFunc2 (x : BitVec 64) : BitVec 64 := (x ^^^ (x >>> 59)) * 58885565329898161

/-- State of the loops of `tinymt64_init_by_array`: the array `st[4]` and the index `i`. -/
structure InitArr where
  st : List (BitVec 64)
  i : Int

/-- Body of the first two loops; `key` is `init_key[j]` in the first loop and 0 in the second.
src/tinymt64.cc:128-133, 136-141 -/
def InitArr.round1 (a : InitArr) (key : BitVec 64) : M InitArr := do
  let x ← rd a.st a.i
  let y ← rd a.st ((a.i + 1) % 4)
  let z ← rd a.st ((a.i + 4 - 1) % 4)
  let r := iniFunc1 (x ^^^ y ^^^ z)
  let st ← wr a.st ((a.i + 1) % 4) (y + r)
  let r := r + (key + BitVec.ofInt 64 a.i)
  let u ← rd st ((a.i + 1 + 1) % 4)
  let st ← wr st ((a.i + 1 + 1) % 4) (u + r)
  let st ← wr st a.i r
  .ok { st := st, i := (a.i + 1) % 4 }

/-- Body of the third loop.  src/tinymt64.cc:144-149 -/
def InitArr.round2 (a : InitArr) : M InitArr := do
  let x ← rd a.st a.i
  let y ← rd a.st ((a.i + 1) % 4)
  let z ← rd a.st ((a.i + 4 - 1) % 4)
  let r := iniFunc2 (x + y + z)
  let st ← wr a.st ((a.i + 1) % 4) (y ^^^ r)
  let r := r - BitVec.ofInt 64 a.i
  let u ← rd st ((a.i + 1 + 1) % 4)
  let st ← wr st ((a.i + 1 + 1) % 4) (u ^^^ r)
  let st ← wr st a.i r
  .ok { st := st, i := (a.i + 1) % 4 }

/-- `tinymt64_init_by_array`; `keyLength` is the caller's claim about the length of `initKey`.
src/tinymt64.cc:101-154 -/
def TinyMT.initByArray (random : TinyMT) (initKey : List (BitVec 64)) (keyLength : Int) : M TinyMT := do
  let st : List (BitVec 64) := [0, random.mat1.zeroExtend 64, random.mat2.zeroExtend 64, random.tmat]
  let count : Int := if keyLength + 1 > 8 then keyLength + 1 else 8
  -- lines 120-125
  let s0 ← rd st 0
  let s1 ← rd st 1
  let s3 ← rd st 3
  let r := iniFunc1 (s0 ^^^ s1 ^^^ s3)
  let st ← wr st 1 (s1 + r)
  let r := r + BitVec.ofInt 64 keyLength
  let s2 ← rd st 2
  let st ← wr st 2 (s2 + r)
  let st ← wr st 0 r
  let count := count - 1
  -- first loop: j < count && j < key_length
  let a ← forRange 0 (min count keyLength) (⟨st, 1⟩ : InitArr) fun j a => do
    let k ← rd initKey j
    a.round1 k
  -- second loop continues with the same j
  let a ← forRange (max 0 (min count keyLength)) count a fun _ a => a.round1 0
  let a ← forRange 0 4 a fun _ a => a.round2
  let t0 ← rd a.st 0
  let t1 ← rd a.st 1
  let t2 ← rd a.st 2
  let t3 ← rd a.st 3
  .ok ({ random with status0 := t0 ^^^ t1, status1 := t2 ^^^ t3 } : TinyMT).periodCertification

end CP
