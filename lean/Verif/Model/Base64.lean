import Verif.Model.Common

/-!
# Model of `include/cybozu/base64.hpp`
-/
namespace Verif.Base64

/-- `base64.hpp:50`  the encoder's character table. -/
def tbl : List UInt8 :=
  "ABCDEFGHIJKLMNOPQRSTUVWXYZabcdefghijklmnopqrstuvwxyz0123456789+/".toUTF8.data.toList

/-- `base64.hpp:18-20`  newline modes `useLF = 0`, `useCRLF = 1`, `noEndLine = 2`
(every other `int` behaves like `useLF`, see `addEndLine`). -/
abbrev Mode := Int

/-- Local variables of `EncodeToBase64` (`base64.hpp:52-59`): `remain`, `idx`, `pos`, the used
part of `outBuf`, and the bytes already passed to `cybozu::write(os, ...)`. -/
structure Enc where
  remain : Nat
  idx : Nat
  pos : Nat
  outBuf : List UInt8
  os : List UInt8
  deriving DecidableEq, Repr

/-- `base64.hpp:57`  `sizeof(outBuf)`. -/
def outBufCap : Nat := 4096

/-- `outBuf[outBufSize++] = c` (`base64.hpp:29,30,67,73,77,78,92,93,96`); writing past the
array is UB. -/
def put (s : Enc) (c : UInt8) : Res Enc :=
  if s.outBuf.length < outBufCap then .ok { s with outBuf := s.outBuf ++ [c] } else .ub

/-- `outBuf[outBufSize++] = tbl[i]`; reading past the table is UB. -/
def putTbl (s : Enc) (i : Nat) : Res Enc := do
  let c ← at? tbl i
  put s c

/-- `base64.hpp:26-31`  `addEndLine`. -/
def addEndLine (mode : Mode) (s : Enc) : Res Enc :=
  if mode = 2 then .ok s
  else do
    let s ← if mode = 1 then put s 13 else .ok s
    put s 10

/-- `base64.hpp:63-87`  body of the inner loop for one input byte.  `unsigned int` arithmetic is
on values below 2^8, so no wrap-around occurs and `Nat` is used. -/
def encByte (maxLine : Nat) (mode : Mode) (s : Enc) (b : UInt8) : Res Enc := do
  let c := b.toNat
  let s ←
    if s.idx = 0 then do
      let s' ← putTbl { s with remain := (c &&& 3) <<< 4 } (c >>> 2)
      pure { s' with pos := s'.pos + 1, idx := 1 }
    else if s.idx = 1 then do
      let tmp := s.remain ||| (c >>> 4)
      let s' ← putTbl { s with remain := (c &&& 0xf) <<< 2 } tmp
      pure { s' with pos := s'.pos + 1, idx := 2 }
    else do
      let s' ← putTbl s (s.remain ||| (c >>> 6))
      let s' ← putTbl s' (c &&& 0x3f)
      pure { s' with pos := s'.pos + 2, idx := 0 }
  if maxLine ≠ 0 ∧ s.pos = maxLine then do
    let s ← addEndLine mode s
    pure { s with pos := 0 }
  else pure s

/-- `base64.hpp:63-87`  the inner `for` loop over one buffer. -/
def encBuf (maxLine : Nat) (mode : Mode) : Enc → List UInt8 → Res Enc
  | s, [] => .ok s
  | s, b :: bs => do
    let s ← encByte maxLine mode s b
    encBuf maxLine mode s bs

/-- `base64.hpp:60-90`  the outer read loop.  The argument is the sequence of non-empty answers of
`readSome`; the end of the list is the answer 0. -/
def encLoop (maxLine : Nat) (mode : Mode) : Enc → List (List UInt8) → Res Enc
  | s, [] => .ok s
  | s, c :: cs =>
    if c = [] then .ok s
    else do
      let s ← encBuf maxLine mode s c
      encLoop maxLine mode { s with os := s.os ++ s.outBuf, outBuf := [] } cs

/-- `base64.hpp:91-105`  padding, last newline and last write. -/
def encFinish (maxLine : Nat) (mode : Mode) (s : Enc) : Res (List UInt8) := do
  let s ←
    if s.idx > 0 then do
      let s' ← putTbl s s.remain
      let s' ← put s' 61
      let s' := { s' with pos := s'.pos + 2 }
      if s'.idx = 1 then do
        let s' ← put s' 61
        pure { s' with pos := s'.pos + 1 }
      else pure s'
    else pure s
  let s ← if maxLine ≠ 0 ∧ s.pos > 0 then addEndLine mode s else pure s
  pure (s.os ++ s.outBuf)

/-- `base64.hpp:43-106`  `EncodeToBase64`; `chunks` are the answers of `readSome(inBuf, 1024, is)`;
the result is everything written to `os`. -/
def encode (maxLine : Nat) (mode : Mode) (chunks : List (List UInt8)) : Res (List UInt8) :=
  if maxLine > 128 ∨ maxLine % 4 ≠ 0 then .throw
  else do
    let s ← encLoop maxLine mode ⟨0, 0, 0, [], []⟩ chunks
    encFinish maxLine mode s

/-- `base64.hpp:137-154`  the decoder's table, row by row; 255 is the skip mark `S`. -/
def decTbl : List Nat :=
  List.replicate 32 255 ++
  (List.replicate 11 255 ++ [62, 255, 255, 255, 63]) ++
  ([52, 53, 54, 55, 56, 57, 58, 59, 60, 61] ++ List.replicate 6 255) ++
  [255, 0, 1, 2, 3, 4, 5, 6, 7, 8, 9, 10, 11, 12, 13, 14] ++
  ([15, 16, 17, 18, 19, 20, 21, 22, 23, 24, 25] ++ List.replicate 5 255) ++
  [255, 26, 27, 28, 29, 30, 31, 32, 33, 34, 35, 36, 37, 38, 39, 40] ++
  ([41, 42, 43, 44, 45, 46, 47, 48, 49, 50, 51] ++ List.replicate 5 255) ++
  List.replicate 128 255

/-- State of `Base64Decoder` (`base64.hpp:114-118`): `outBuf_` (used part), `idx_`, `cur_`, and the
bytes already written to `os_`. -/
structure Dec where
  outBuf : List UInt8
  idx : Nat
  cur : Nat
  os : List UInt8
  deriving DecidableEq, Repr

/-- `base64.hpp:122-128`  constructor. -/
def Dec.init : Dec := ⟨[], 0, 0, []⟩

/-- `base64.hpp:115`  `sizeof(outBuf_)`. -/
def decBufCap : Nat := 1024

/-- `outBuf_[outBufSize_++] = static_cast<char>(v)` (`base64.hpp:162,166,170`). -/
def Dec.put (s : Dec) (v : Nat) : Res Dec :=
  if s.outBuf.length < decBufCap then .ok { s with outBuf := s.outBuf ++ [UInt8.ofNat v] } else .ub

/-- `base64.hpp:155-177`  loop body of `Base64Decoder::write` for one character. -/
def decByte (s : Dec) (b : UInt8) : Res Dec := do
  let t ← at? decTbl b.toNat
  if t = 255 then pure s
  else do
    let s ←
      if s.idx = 0 then pure { s with cur := t <<< 2, idx := 1 }
      else if s.idx = 1 then do
        let s' ← s.put (s.cur ||| (t >>> 4))
        pure { s' with cur := (t &&& 0xf) <<< 4, idx := 2 }
      else if s.idx = 2 then do
        let s' ← s.put (s.cur ||| (t >>> 2))
        pure { s' with cur := (t &&& 3) <<< 6, idx := 3 }
      else do
        let s' ← s.put (s.cur ||| t)
        pure { s' with idx := 0 }
    if s.outBuf.length = decBufCap then pure { s with os := s.os ++ s.outBuf, outBuf := [] }
    else pure s

/-- `base64.hpp:134-179`  `Base64Decoder::write`. -/
def Dec.write : Dec → List UInt8 → Res Dec
  | s, [] => .ok s
  | s, b :: bs => do
    let s ← decByte s b
    Dec.write s bs

/-- `base64.hpp:183-189`  `Base64Decoder::flush`. -/
def Dec.flush (s : Dec) : Dec :=
  if s.outBuf.length > 0 then { s with os := s.os ++ s.outBuf, outBuf := [] } else s

/-- `base64.hpp:201-206`  read loop of `DecodeFromBase64`. -/
def decLoop : Dec → List (List UInt8) → Res Dec
  | s, [] => .ok s
  | s, c :: cs =>
    if c = [] then .ok s
    else do
      let s ← s.write c
      decLoop s cs

/-- `base64.hpp:198-208`  `DecodeFromBase64`; the result is everything written to `os`. -/
def decode (chunks : List (List UInt8)) : Res (List UInt8) := do
  let s ← decLoop Dec.init chunks
  pure s.flush.os

end Verif.Base64
