import Verif.Model.Basic

/-!
# Model of the MD5 code (c++/externals/zip/md5.tar.gz, md5/md5.c) and of its use in c++/src/hash.cpp

Words are 32 bits wide (md5.h: `unsigned int`). The counters `lo` and `hi` are natural numbers with the masks of the code.
Memory is read and written through checked accessors. The buffer of a new context is not set by the code, so that its content
is a parameter. On the platforms of the code bytes are in little-endian order and `SET` and `GET` read the data directly
(md5.c:73-77).
-/

namespace KMC.Md5

abbrev Byte := BitVec 8
abbrev Word := BitVec 32

/-- md5.c:51-55 the macros. -/
inductive Fn
  | F | G | H | H2 | I
  deriving DecidableEq, Repr

/-- md5.c:51-55 the basic functions. -/
def Fn.ap : Fn → Word → Word → Word → Word
  | F, x, y, z => z ^^^ (x &&& (y ^^^ z))
  | G, x, y, z => y ^^^ (z &&& (x ^^^ y))
  | H, x, y, z => (x ^^^ y) ^^^ z
  | H2, x, y, z => x ^^^ (y ^^^ z)
  | I, x, y, z => y ^^^ (x ||| ~~~z)

/-- The local variables of `body`. -/
inductive Reg
  | a | b | c | d
  deriving DecidableEq, Repr

/-- md5.c:96 `MD5_u32plus a, b, c, d`. -/
structure Regs where
  a : Word
  b : Word
  c : Word
  d : Word
  deriving DecidableEq, Repr

def Regs.get (r : Regs) : Reg → Word
  | .a => r.a
  | .b => r.b
  | .c => r.c
  | .d => r.d

def Regs.set (r : Regs) (x : Reg) (v : Word) : Regs :=
  match x with
  | .a => { r with a := v }
  | .b => { r with b := v }
  | .c => { r with c := v }
  | .d => { r with d := v }

/-- One line `STEP(f, a, b, c, d, SET(k), t, s)`. -/
structure Line where
  f : Fn
  ra : Reg
  rb : Reg
  rc : Reg
  rd : Reg
  k : Nat
  t : Word
  s : Nat
  deriving DecidableEq, Repr

/-- md5.c:113-182 the lines of `body`, in their order. -/
def lines : List Line :=
  [⟨.F, .a, .b, .c, .d, 0, 0xd76aa478#32, 7⟩, ⟨.F, .d, .a, .b, .c, 1, 0xe8c7b756#32, 12⟩,
   ⟨.F, .c, .d, .a, .b, 2, 0x242070db#32, 17⟩, ⟨.F, .b, .c, .d, .a, 3, 0xc1bdceee#32, 22⟩,
   ⟨.F, .a, .b, .c, .d, 4, 0xf57c0faf#32, 7⟩, ⟨.F, .d, .a, .b, .c, 5, 0x4787c62a#32, 12⟩,
   ⟨.F, .c, .d, .a, .b, 6, 0xa8304613#32, 17⟩, ⟨.F, .b, .c, .d, .a, 7, 0xfd469501#32, 22⟩,
   ⟨.F, .a, .b, .c, .d, 8, 0x698098d8#32, 7⟩, ⟨.F, .d, .a, .b, .c, 9, 0x8b44f7af#32, 12⟩,
   ⟨.F, .c, .d, .a, .b, 10, 0xffff5bb1#32, 17⟩, ⟨.F, .b, .c, .d, .a, 11, 0x895cd7be#32, 22⟩,
   ⟨.F, .a, .b, .c, .d, 12, 0x6b901122#32, 7⟩, ⟨.F, .d, .a, .b, .c, 13, 0xfd987193#32, 12⟩,
   ⟨.F, .c, .d, .a, .b, 14, 0xa679438e#32, 17⟩, ⟨.F, .b, .c, .d, .a, 15, 0x49b40821#32, 22⟩,
   ⟨.G, .a, .b, .c, .d, 1, 0xf61e2562#32, 5⟩, ⟨.G, .d, .a, .b, .c, 6, 0xc040b340#32, 9⟩,
   ⟨.G, .c, .d, .a, .b, 11, 0x265e5a51#32, 14⟩, ⟨.G, .b, .c, .d, .a, 0, 0xe9b6c7aa#32, 20⟩,
   ⟨.G, .a, .b, .c, .d, 5, 0xd62f105d#32, 5⟩, ⟨.G, .d, .a, .b, .c, 10, 0x02441453#32, 9⟩,
   ⟨.G, .c, .d, .a, .b, 15, 0xd8a1e681#32, 14⟩, ⟨.G, .b, .c, .d, .a, 4, 0xe7d3fbc8#32, 20⟩,
   ⟨.G, .a, .b, .c, .d, 9, 0x21e1cde6#32, 5⟩, ⟨.G, .d, .a, .b, .c, 14, 0xc33707d6#32, 9⟩,
   ⟨.G, .c, .d, .a, .b, 3, 0xf4d50d87#32, 14⟩, ⟨.G, .b, .c, .d, .a, 8, 0x455a14ed#32, 20⟩,
   ⟨.G, .a, .b, .c, .d, 13, 0xa9e3e905#32, 5⟩, ⟨.G, .d, .a, .b, .c, 2, 0xfcefa3f8#32, 9⟩,
   ⟨.G, .c, .d, .a, .b, 7, 0x676f02d9#32, 14⟩, ⟨.G, .b, .c, .d, .a, 12, 0x8d2a4c8a#32, 20⟩,
   ⟨.H, .a, .b, .c, .d, 5, 0xfffa3942#32, 4⟩, ⟨.H2, .d, .a, .b, .c, 8, 0x8771f681#32, 11⟩,
   ⟨.H, .c, .d, .a, .b, 11, 0x6d9d6122#32, 16⟩, ⟨.H2, .b, .c, .d, .a, 14, 0xfde5380c#32, 23⟩,
   ⟨.H, .a, .b, .c, .d, 1, 0xa4beea44#32, 4⟩, ⟨.H2, .d, .a, .b, .c, 4, 0x4bdecfa9#32, 11⟩,
   ⟨.H, .c, .d, .a, .b, 7, 0xf6bb4b60#32, 16⟩, ⟨.H2, .b, .c, .d, .a, 10, 0xbebfbc70#32, 23⟩,
   ⟨.H, .a, .b, .c, .d, 13, 0x289b7ec6#32, 4⟩, ⟨.H2, .d, .a, .b, .c, 0, 0xeaa127fa#32, 11⟩,
   ⟨.H, .c, .d, .a, .b, 3, 0xd4ef3085#32, 16⟩, ⟨.H2, .b, .c, .d, .a, 6, 0x04881d05#32, 23⟩,
   ⟨.H, .a, .b, .c, .d, 9, 0xd9d4d039#32, 4⟩, ⟨.H2, .d, .a, .b, .c, 12, 0xe6db99e5#32, 11⟩,
   ⟨.H, .c, .d, .a, .b, 15, 0x1fa27cf8#32, 16⟩, ⟨.H2, .b, .c, .d, .a, 2, 0xc4ac5665#32, 23⟩,
   ⟨.I, .a, .b, .c, .d, 0, 0xf4292244#32, 6⟩, ⟨.I, .d, .a, .b, .c, 7, 0x432aff97#32, 10⟩,
   ⟨.I, .c, .d, .a, .b, 14, 0xab9423a7#32, 15⟩, ⟨.I, .b, .c, .d, .a, 5, 0xfc93a039#32, 21⟩,
   ⟨.I, .a, .b, .c, .d, 12, 0x655b59c3#32, 6⟩, ⟨.I, .d, .a, .b, .c, 3, 0x8f0ccc92#32, 10⟩,
   ⟨.I, .c, .d, .a, .b, 10, 0xffeff47d#32, 15⟩, ⟨.I, .b, .c, .d, .a, 1, 0x85845dd1#32, 21⟩,
   ⟨.I, .a, .b, .c, .d, 8, 0x6fa87e4f#32, 6⟩, ⟨.I, .d, .a, .b, .c, 15, 0xfe2ce6e0#32, 10⟩,
   ⟨.I, .c, .d, .a, .b, 6, 0xa3014314#32, 15⟩, ⟨.I, .b, .c, .d, .a, 13, 0x4e0811a1#32, 21⟩,
   ⟨.I, .a, .b, .c, .d, 4, 0xf7537e82#32, 6⟩, ⟨.I, .d, .a, .b, .c, 11, 0xbd3af235#32, 10⟩,
   ⟨.I, .c, .d, .a, .b, 2, 0x2ad7d2bb#32, 15⟩, ⟨.I, .b, .c, .d, .a, 9, 0xeb86d391#32, 21⟩]

/-- md5.c:74-75 `SET(n)`: four bytes in little-endian order. -/
def setWord (data : List Byte) (n : Nat) : M Word := do
  let b0 ← KMC.rd data (n * 4)
  let b1 ← KMC.rd data (n * 4 + 1)
  let b2 ← KMC.rd data (n * 4 + 2)
  let b3 ← KMC.rd data (n * 4 + 3)
  return b0.setWidth 32 ||| (b1.setWidth 32 <<< 8) ||| (b2.setWidth 32 <<< 16) ||| (b3.setWidth 32 <<< 24)

/-- md5.c:60-63 the macro `STEP`, for a line of `body`. -/
def step (data : List Byte) (r : Regs) (l : Line) : M Regs := do
  let x ← setWord data l.k
  let a1 := r.get l.ra + (l.f.ap (r.get l.rb) (r.get l.rc) (r.get l.rd) + x + l.t)
  let a2 := (a1 <<< l.s) ||| ((a1 &&& 0xffffffff#32) >>> (32 - l.s))
  return r.set l.ra (a2 + r.get l.rb)

/-- md5.c:105-190 one turn of the loop of `body`. -/
def turn (data : List Byte) (r : Regs) : M Regs := do
  let r' ← loopM (step data) lines r
  return ⟨r'.a + r.a, r'.b + r.b, r'.c + r.c, r'.d + r.d⟩

/-- md5.c:93-198 body, for `n + 1` blocks of 64 bytes (`do … while (size -= 64)`). -/
def body (r : Regs) (data : List Byte) : Nat → M Regs
  | 0 => turn data r
  | n + 1 => do
    let r' ← turn data r
    body r' (data.drop 64) n

/-- md5.h MD5_CTX without `block`, which is not used (see above). -/
structure Ctx where
  lo : Nat
  hi : Nat
  regs : Regs
  buffer : List Byte
  deriving DecidableEq, Repr

/-- md5.c:200-209 MD5_Init. -/
def init (buffer : List Byte) : Ctx :=
  ⟨0, 0, ⟨0x67452301#32, 0xefcdab89#32, 0x98badcfe#32, 0x10325476#32⟩, buffer⟩

/-- `memcpy(&buf[offset], src, n)`. -/
def memcpy (buf : List Byte) (offset : Nat) (src : List Byte) (n : Nat) : M (List Byte) :=
  if offset + n ≤ buf.length ∧ n ≤ src.length then .ok (buf.take offset ++ src.take n ++ buf.drop (offset + n))
  else .error .outOfBounds

/-- md5.c:237-242: whole blocks, and the rest into the buffer. -/
def rest (ctx : Ctx) (data : List Byte) : M Ctx := do
  let size := data.length
  if size ≥ 64 then
    let r ← body ctx.regs data (size / 64 - 1)
    let buf ← memcpy ctx.buffer 0 (data.drop (size - size % 64)) (size % 64)
    return { ctx with regs := r, buffer := buf }
  else
    let buf ← memcpy ctx.buffer 0 data size
    return { ctx with buffer := buf }

/-- md5.c:211-243 MD5_Update. -/
def update (ctx : Ctx) (data : List Byte) : M Ctx :=
  let size := data.length
  let lo := (ctx.lo + size) % 2 ^ 29
  let hi := ((if lo < ctx.lo then ctx.hi + 1 else ctx.hi) + size / 2 ^ 29) % 2 ^ 32
  let used := ctx.lo % 64
  if used ≠ 0 then
    let available := 64 - used
    if size < available then do
      let buf ← memcpy ctx.buffer used data size
      return ⟨lo, hi, ctx.regs, buf⟩
    else do
      let buf ← memcpy ctx.buffer used data available
      let r ← body ctx.regs buf 0
      rest ⟨lo, hi, r, buf⟩ (data.drop available)
  else rest ⟨lo, hi, ctx.regs, ctx.buffer⟩ data

/-- md5.c:256-261: no room for the length, so that one more block is used. Gives the registers, the buffer and `used`. -/
def makeRoom (regs : Regs) (buf : List Byte) (used : Nat) : M (Regs × List Byte × Nat) :=
  let available := 64 - used
  if available < 8 then do
    let buf ← memcpy buf used (List.replicate available 0#8) available
    let r ← body regs buf 0
    return (r, buf, 0)
  else .ok (regs, buf, used)

/-- md5.c:265-273: the eight bytes of the length, `lo` after the shift by three. -/
def lengthBytes (lo hi : Nat) : List Byte :=
  let l := (lo * 8) % 2 ^ 32
  [BitVec.ofNat 8 l, BitVec.ofNat 8 (l / 2 ^ 8), BitVec.ofNat 8 (l / 2 ^ 16), BitVec.ofNat 8 (l / 2 ^ 24),
   BitVec.ofNat 8 hi, BitVec.ofNat 8 (hi / 2 ^ 8), BitVec.ofNat 8 (hi / 2 ^ 16), BitVec.ofNat 8 (hi / 2 ^ 24)]

/-- md5.c:277-292: four bytes of a register. -/
def wordBytes (w : Word) : List Byte :=
  [w.setWidth 8, (w >>> 8).setWidth 8, (w >>> 16).setWidth 8, (w >>> 24).setWidth 8]

/-- md5.c:245-295 MD5_Final. -/
def final (ctx : Ctx) : M (List Byte) := do
  let used := ctx.lo % 64
  let buf ← memcpy ctx.buffer used [0x80#8] 1
  let r ← makeRoom ctx.regs buf (used + 1)
  let available := 64 - r.2.2
  let buf ← memcpy r.2.1 r.2.2 (List.replicate (available - 8) 0#8) (available - 8)
  let buf ← memcpy buf 56 (lengthBytes ctx.lo ctx.hi) 8
  let regs ← body r.1 buf 0
  return wordBytes regs.a ++ wordBytes regs.b ++ wordBytes regs.c ++ wordBytes regs.d

/-- c++/src/hash.cpp:44-64 md5Core up to the digest. -/
def digest (buffer message : List Byte) : M (List Byte) := do
  let ctx ← update (init buffer) message
  final ctx

/-- `memcpy` of eight bytes, from position `i` on, to a `uint64_t`. -/
def word64 (bytes : List Byte) (i : Nat) : M (BitVec 64) := do
  let lo ← setWord bytes (2 * i)
  let hi ← setWord bytes (2 * i + 1)
  return hi ++ lo

/-- c++/src/hash.cpp:44-64 md5Core. -/
def md5Core (buffer message : List Byte) : M (BitVec 64 × BitVec 64) := do
  let result ← digest buffer message
  let r1 ← word64 result 0
  let r2 ← word64 result 1
  return (r1, r2)

/-- The bytes of an `int` in memory. -/
def intBytes (i : Int) : List Byte := wordBytes (BitVec.ofInt 32 i)

/-- c++/src/hash.cpp:27-39 hash64MD5xor for integers. -/
def hash64 (buffer : List Byte) (message : List Int) : M (BitVec 64) := do
  let r ← md5Core buffer (message.flatMap intBytes)
  return r.1 ^^^ r.2

/-- The digits of `%x`: hexadecimal, without leading zeros. -/
def hexText (w : BitVec 64) : String := String.ofList (Nat.toDigits 16 w.toNat)

/-- c++/src/hash.cpp:68-79 hashMD5: the text made of the two halves. -/
def digestText (r : BitVec 64 × BitVec 64) : String := hexText r.1 ++ hexText r.2

end KMC.Md5
