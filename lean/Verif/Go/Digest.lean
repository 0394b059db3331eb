import Verif.Go.Bytes

/-!
`crypto/sha1` (RFC 3174), `crypto/md5` (RFC 1321) and `hex.EncodeToString`, used in src/util/hash.go:8-12 and
src/wikipedia/wikipedia.go:216.
-/

namespace Verif.Go

/-- One lower-case hexadecimal digit. -/
def sumDigit (n : UInt8) : Byte := if n < 10 then 48 + n else 87 + n

/-- `hex.EncodeToString` and `%x` of bytes. -/
def hexEncode (s : Str) : Str := s.flatMap fun (c : Byte) => [sumDigit (c >>> 4), sumDigit (c &&& 15)]

/-- Rotation to the left. -/
def rotl (x n : UInt32) : UInt32 := (x <<< n) ||| (x >>> (32 - n))

/-- The bytes of a word, the highest first. -/
def wordBE (x : UInt32) : Str := [(x >>> 24).toUInt8, (x >>> 16).toUInt8, (x >>> 8).toUInt8, x.toUInt8]

/-- The bytes of a word, the lowest first. -/
def wordLE (x : UInt32) : Str := (wordBE x).reverse

/-- The number with these four bytes, the highest first. -/
def word (a b c d : Byte) : UInt32 := (a.toUInt32 <<< 24) ||| (b.toUInt32 <<< 16) ||| (c.toUInt32 <<< 8) ||| d.toUInt32

/-- The words of a text, the highest byte of each first. -/
def wordsBE : Str → List UInt32
  | a :: b :: c :: d :: rest => word a b c d :: wordsBE rest
  | _ => []

/-- The words of a text, the lowest byte of each first. -/
def wordsLE : Str → List UInt32
  | a :: b :: c :: d :: rest => word d c b a :: wordsLE rest
  | _ => []

/-- The text with the bit 1 and zeros up to eight bytes below a multiple of 64 bytes. -/
def padded (s : Str) : Str := s ++ 0x80 :: List.replicate ((119 - s.length % 64) % 64) 0

/-- The number of bits of a text as two words (higher, lower). -/
def bitLength (s : Str) : UInt32 × UInt32 := (UInt32.ofNat (s.length * 8 / 2 ^ 32), UInt32.ofNat (s.length * 8))

/-- Lists of 16 words. -/
def blocks (ws : List UInt32) : List (List UInt32) := (List.range (ws.length / 16)).map fun i => (ws.drop (16 * i)).take 16

/-! ## SHA-1 -/

/-- The variables of SHA-1. -/
structure Sha1 where
  a : UInt32
  b : UInt32
  c : UInt32
  d : UInt32
  e : UInt32

/-- The 80 words of a block, the last first: each further word comes from those 3, 8, 14 and 16 positions before. -/
def sha1Schedule : (steps : Nat) → List UInt32 → List UInt32
  | 0, ws => ws
  | steps + 1, ws => sha1Schedule steps (rotl (ws.getD 2 0 ^^^ ws.getD 7 0 ^^^ ws.getD 13 0 ^^^ ws.getD 15 0) 1 :: ws)

/-- One of the 80 steps. -/
def sha1Step (h : Sha1) (w : UInt32 × Nat) : Sha1 :=
  let f : UInt32 :=
    if w.2 < 20 then (h.b &&& h.c) ||| (~~~h.b &&& h.d)
    else if w.2 < 40 then h.b ^^^ h.c ^^^ h.d
    else if w.2 < 60 then (h.b &&& h.c) ||| (h.b &&& h.d) ||| (h.c &&& h.d)
    else h.b ^^^ h.c ^^^ h.d
  let k : UInt32 := if w.2 < 20 then 0x5A827999 else if w.2 < 40 then 0x6ED9EBA1 else if w.2 < 60 then 0x8F1BBCDC else 0xCA62C1D6
  ⟨rotl h.a 5 + f + h.e + k + w.1, h.a, rotl h.b 30, h.c, h.d⟩

/-- One block. -/
def sha1Block (h : Sha1) (block : List UInt32) : Sha1 :=
  let r := (sha1Schedule 64 block.reverse).reverse.zipIdx.foldl sha1Step h
  ⟨h.a + r.a, h.b + r.b, h.c + r.c, h.d + r.d, h.e + r.e⟩

/-- `sha1.Sum`: the 20 bytes of the SHA-1 sum. -/
def sha1 (s : Str) : Str :=
  let n := bitLength s
  let h := (blocks (wordsBE (padded s) ++ [n.1, n.2])).foldl sha1Block ⟨0x67452301, 0xEFCDAB89, 0x98BADCFE, 0x10325476, 0xC3D2E1F0⟩
  wordBE h.a ++ wordBE h.b ++ wordBE h.c ++ wordBE h.d ++ wordBE h.e

/-- `util.Hash`, src/util/hash.go:8-12. -/
def sha1hex (s : Str) : Str := hexEncode (sha1 s)

/-! ## MD5 -/

/-- The variables of MD5. -/
structure Md5 where
  a : UInt32
  b : UInt32
  c : UInt32
  d : UInt32

/-- The constants `⌊2^32 · |sin (i + 1)|⌋`. -/
def md5Table : List UInt32 :=
  [0xd76aa478, 0xe8c7b756, 0x242070db, 0xc1bdceee, 0xf57c0faf, 0x4787c62a, 0xa8304613, 0xfd469501,
   0x698098d8, 0x8b44f7af, 0xffff5bb1, 0x895cd7be, 0x6b901122, 0xfd987193, 0xa679438e, 0x49b40821,
   0xf61e2562, 0xc040b340, 0x265e5a51, 0xe9b6c7aa, 0xd62f105d, 0x02441453, 0xd8a1e681, 0xe7d3fbc8,
   0x21e1cde6, 0xc33707d6, 0xf4d50d87, 0x455a14ed, 0xa9e3e905, 0xfcefa3f8, 0x676f02d9, 0x8d2a4c8a,
   0xfffa3942, 0x8771f681, 0x6d9d6122, 0xfde5380c, 0xa4beea44, 0x4bdecfa9, 0xf6bb4b60, 0xbebfbc70,
   0x289b7ec6, 0xeaa127fa, 0xd4ef3085, 0x04881d05, 0xd9d4d039, 0xe6db99e5, 0x1fa27cf8, 0xc4ac5665,
   0xf4292244, 0x432aff97, 0xab9423a7, 0xfc93a039, 0x655b59c3, 0x8f0ccc92, 0xffeff47d, 0x85845dd1,
   0x6fa87e4f, 0xfe2ce6e0, 0xa3014314, 0x4e0811a1, 0xf7537e82, 0xbd3af235, 0x2ad7d2bb, 0xeb86d391]

/-- The rotations of the four rounds. -/
def md5Shift (i : Nat) : UInt32 :=
  (if i < 16 then [7, 12, 17, 22] else if i < 32 then [5, 9, 14, 20] else if i < 48 then [4, 11, 16, 23] else [6, 10, 15, 21]).getD
    (i % 4) 0

/-- One of the 64 steps. -/
def md5Step (block : List UInt32) (h : Md5) (k : UInt32 × Nat) : Md5 :=
  let i := k.2
  let f : UInt32 :=
    if i < 16 then (h.b &&& h.c) ||| (~~~h.b &&& h.d)
    else if i < 32 then (h.d &&& h.b) ||| (~~~h.d &&& h.c)
    else if i < 48 then h.b ^^^ h.c ^^^ h.d
    else h.c ^^^ (h.b ||| ~~~h.d)
  let g := if i < 16 then i else if i < 32 then (5 * i + 1) % 16 else if i < 48 then (3 * i + 5) % 16 else 7 * i % 16
  ⟨h.d, h.b + rotl (h.a + f + k.1 + block.getD g 0) (md5Shift i), h.b, h.c⟩

/-- One block. -/
def md5Block (h : Md5) (block : List UInt32) : Md5 :=
  let r := md5Table.zipIdx.foldl (md5Step block) h
  ⟨h.a + r.a, h.b + r.b, h.c + r.c, h.d + r.d⟩

/-- `md5.Sum`: the 16 bytes of the MD5 sum. -/
def md5 (s : Str) : Str :=
  let n := bitLength s
  let h := (blocks (wordsLE (padded s) ++ [n.2, n.1])).foldl md5Block ⟨0x67452301, 0xEFCDAB89, 0x98BADCFE, 0x10325476⟩
  wordLE h.a ++ wordLE h.b ++ wordLE h.c ++ wordLE h.d

/-- `fmt.Sprintf("%x", md5.Sum(s))`, src/wikipedia/wikipedia.go:216. -/
def md5hex (s : Str) : Str := hexEncode (md5 s)

end Verif.Go
