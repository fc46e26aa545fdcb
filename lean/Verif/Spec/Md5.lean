import Mathlib.Data.List.Basic

/-!
# MD5 as defined in RFC 1321

Independent of the code: the message is padded, cut into blocks of 64 bytes, and each block is worked into the state by 64
operations given by formulas for the round function, the word, the shift and the additive constant.
-/

namespace KMC.Rfc1321

/-- The state `A`, `B`, `C`, `D`. -/
structure State where
  A : BitVec 32
  B : BitVec 32
  C : BitVec 32
  D : BitVec 32
  deriving DecidableEq

/-- Section 3.3 of the RFC. -/
def iv : State := ⟨0x67452301#32, 0xefcdab89#32, 0x98badcfe#32, 0x10325476#32⟩

/-- Section 3.4: the functions F, G, H and I for the four rounds. -/
def roundFn (round : Nat) (x y z : BitVec 32) : BitVec 32 :=
  if round = 0 then (x &&& y) ||| (~~~x &&& z)
  else if round = 1 then (x &&& z) ||| (y &&& ~~~z)
  else if round = 2 then x ^^^ y ^^^ z
  else y ^^^ (x ||| ~~~z)

/-- Section 3.4: the word used by operation `i`. -/
def wordIndex (i : Nat) : Nat :=
  if i / 16 = 0 then i % 16
  else if i / 16 = 1 then (5 * i + 1) % 16
  else if i / 16 = 2 then (3 * i + 5) % 16
  else 7 * i % 16

/-- Section 3.4: the shift of operation `i`. -/
def shift (i : Nat) : Nat :=
  match i / 16, i % 4 with
  | 0, 0 => 7 | 0, 1 => 12 | 0, 2 => 17 | 0, _ => 22
  | 1, 0 => 5 | 1, 1 => 9 | 1, 2 => 14 | 1, _ => 20
  | 2, 0 => 4 | 2, 1 => 11 | 2, 2 => 16 | 2, _ => 23
  | _, 0 => 6 | _, 1 => 10 | _, 2 => 15 | _, _ => 21

/-- Section 3.4: the table `T` (the integer parts of 4294967296 |sin i|), as in the appendix of the RFC. -/
def table : List Nat :=
  [0xd76aa478, 0xe8c7b756, 0x242070db, 0xc1bdceee, 0xf57c0faf, 0x4787c62a, 0xa8304613, 0xfd469501,
   0x698098d8, 0x8b44f7af, 0xffff5bb1, 0x895cd7be, 0x6b901122, 0xfd987193, 0xa679438e, 0x49b40821,
   0xf61e2562, 0xc040b340, 0x265e5a51, 0xe9b6c7aa, 0xd62f105d, 0x02441453, 0xd8a1e681, 0xe7d3fbc8,
   0x21e1cde6, 0xc33707d6, 0xf4d50d87, 0x455a14ed, 0xa9e3e905, 0xfcefa3f8, 0x676f02d9, 0x8d2a4c8a,
   0xfffa3942, 0x8771f681, 0x6d9d6122, 0xfde5380c, 0xa4beea44, 0x4bdecfa9, 0xf6bb4b60, 0xbebfbc70,
   0x289b7ec6, 0xeaa127fa, 0xd4ef3085, 0x04881d05, 0xd9d4d039, 0xe6db99e5, 0x1fa27cf8, 0xc4ac5665,
   0xf4292244, 0x432aff97, 0xab9423a7, 0xfc93a039, 0x655b59c3, 0x8f0ccc92, 0xffeff47d, 0x85845dd1,
   0x6fa87e4f, 0xfe2ce6e0, 0xa3014314, 0x4e0811a1, 0xf7537e82, 0xbd3af235, 0x2ad7d2bb, 0xeb86d391]

def T (i : Nat) : BitVec 32 := BitVec.ofNat 32 (table.getD i 0)

/-- Word `k` of a block, least significant byte first. -/
def word (block : List (BitVec 8)) (k : Nat) : BitVec 32 :=
  block.getD (4 * k + 3) 0 ++ block.getD (4 * k + 2) 0 ++ block.getD (4 * k + 1) 0 ++ block.getD (4 * k) 0

/-- Operation `i`: `a = b + ((a + F(b,c,d) + X[k] + T[i]) <<< s)`, after which the four words change their roles. -/
def op (block : List (BitVec 8)) (s : State) (i : Nat) : State :=
  ⟨s.D, s.B + (s.A + roundFn (i / 16) s.B s.C s.D + word block (wordIndex i) + T i).rotateLeft (shift i), s.B, s.C⟩

/-- Section 3.4: one block. -/
def compress (s : State) (block : List (BitVec 8)) : State :=
  let r := (List.range 64).foldl (op block) s
  ⟨s.A + r.A, s.B + r.B, s.C + r.C, s.D + r.D⟩

/-- The whole blocks of a message. -/
def blocks (msg : List (BitVec 8)) : List (List (BitVec 8)) :=
  (List.range (msg.length / 64)).map fun i => (msg.drop (64 * i)).take 64

def absorb (s : State) (msg : List (BitVec 8)) : State := (blocks msg).foldl compress s

/-- Sections 3.1 and 3.2: a one bit, zeros up to 56 bytes modulo 64, and the number of bits in eight bytes, the low order 64
bits if there are more. -/
def pad (msg : List (BitVec 8)) : List (BitVec 8) :=
  msg ++ [0x80#8] ++ List.replicate ((119 - msg.length % 64) % 64) 0#8 ++
    (List.range 8).map fun i => BitVec.ofNat 8 (8 * msg.length / 256 ^ i)

/-- Section 3.5: a word, least significant byte first. -/
def bytes (w : BitVec 32) : List (BitVec 8) := (List.range 4).map fun i => w.extractLsb' (8 * i) 8

/-- MD5. -/
def md5 (msg : List (BitVec 8)) : List (BitVec 8) :=
  let s := absorb iv (pad msg)
  bytes s.A ++ bytes s.B ++ bytes s.C ++ bytes s.D

end KMC.Rfc1321
