import Verif.Model.Stream

/-!
# Model of the reading and writing loops of `include/cybozu/file.hpp` and `include/cybozu/socket.hpp`

The operating system is an unknown sequence of answers: the `i`-th system call moves at most `k` bytes (`move k`),
is interrupted (`eintr`) or fails (`error`).  The sequence is universally quantified in the theorems.  The loops
have no bound of their own; they get `fuel` rounds and answer `running` when these are used up.  The Windows
branches of `File` are in `FileWin`; those of `Socket` are not modelled.
-/
namespace Verif.PartialIO

/-- What a system call is going to do. -/
inductive Ans where
  | move (k : Nat)
  | eintr
  | error
  deriving DecidableEq

/-- An open descriptor: the bytes it accepted so far, the bytes it can still deliver, the answers to come and
the number of system calls so far. -/
structure Dev where
  out : List UInt8
  rest : List UInt8
  ans : Nat → Ans
  calls : Nat

/-- How a call of the library ended. -/
inductive Outcome where
  | done
  /-- an exception -/
  | failed
  /-- the rounds are used up -/
  | running
  /-- memory outside the buffer was touched -/
  | ub
  deriving DecidableEq

/-- `::write(fd, bytes, bytes.length)`: the value (`ssize_t`), `errno == EINTR`, the descriptor afterwards. -/
def Dev.write (d : Dev) (bytes : List UInt8) : Int × Bool × Dev :=
  match d.ans d.calls with
  | .move k =>
    let n := min k bytes.length
    (n, false, { d with out := d.out ++ bytes.take n, calls := d.calls + 1 })
  | .eintr => (-1, true, { d with calls := d.calls + 1 })
  | .error => (-1, false, { d with calls := d.calls + 1 })

/-- `::read(fd, p, size)`: the value, `errno == EINTR`, the bytes put at `p`, the descriptor afterwards. -/
def Dev.read (d : Dev) (size : Nat) : Int × Bool × List UInt8 × Dev :=
  match d.ans d.calls with
  | .move k =>
    let n := min k (min size d.rest.length)
    (n, false, d.rest.take n, { d with rest := d.rest.drop n, calls := d.calls + 1 })
  | .eintr => (-1, true, [], { d with calls := d.calls + 1 })
  | .error => (-1, false, [], { d with calls := d.calls + 1 })

/-- A value stored in a signed type of `bits` bits. -/
def wrapInt (bits : Nat) (x : Int) : Int := x.bmod (2 ^ bits)

/-- `bufSize -= n` for a `size_t`. -/
def subSize (bufSize : Nat) (n : Int) : Nat := ((bufSize - n) % 2 ^ 64).toNat

/-- The loop of `File::write` (file.hpp:254-272).  `p` is an offset into `buf`. -/
def File.writeLoop : (fuel : Nat) → (buf : List UInt8) → (p : Int) → (bufSize : Nat) → Dev → Outcome × Dev
  | 0, _, _, _, d => (.running, d)
  | fuel + 1, buf, p, bufSize, d =>
    if bufSize > 0 then
      let size := min 0x7fffffff bufSize
      if 0 ≤ p ∧ p.toNat + size ≤ buf.length then
        let (writeSize, intr, d) := d.write ((buf.drop p.toNat).take size)
        if writeSize < 0 then
          if intr then File.writeLoop fuel buf p bufSize d else (.failed, d)
        else File.writeLoop fuel buf (p + writeSize) (subSize bufSize writeSize) d
      else (.ub, d)
    else (.done, d)

/-- `File::write(buf, bufSize)` (file.hpp:251-272). -/
def File.write (fuel : Nat) (buf : List UInt8) (d : Dev) : Outcome × Dev := File.writeLoop fuel buf 0 buf.length d

/-- The loop of `Socket::write` (socket.hpp:508-523).  The value of `::write` is stored in an `int`. -/
def Socket.writeLoop : (fuel : Nat) → (buf : List UInt8) → (p : Int) → (bufSize : Nat) → Dev → Outcome × Dev
  | 0, _, _, _, d => (.running, d)
  | fuel + 1, buf, p, bufSize, d =>
    if bufSize > 0 then
      let size := wrapInt 32 (min 0x7fffffff bufSize)
      if 0 ≤ p ∧ 0 ≤ size ∧ p.toNat + size.toNat ≤ buf.length then
        let (ret, intr, d) := d.write ((buf.drop p.toNat).take size.toNat)
        let writeSize := wrapInt 32 ret
        if writeSize < 0 ∧ intr then Socket.writeLoop fuel buf p bufSize d
        else if writeSize < 0 then (.failed, d)
        else Socket.writeLoop fuel buf (p + writeSize) (subSize bufSize writeSize) d
      else (.ub, d)
    else (.done, d)

/-- `Socket::write(buf, bufSize)` (socket.hpp:505-530); `*pb = false` becomes the exception. -/
def Socket.write (fuel : Nat) (buf : List UInt8) (d : Dev) : Outcome × Dev := Socket.writeLoop fuel buf 0 buf.length d

/-- `File::readSome` (file.hpp:273-290) and `Socket::readSome` (socket.hpp:471-483): interrupted calls are repeated.
The buffer is `dst[p..p+bufSize)`.  The value and the buffer. -/
def readSome : (fuel : Nat) → (dst : List UInt8) → (p bufSize : Nat) → Dev → Outcome × Nat × List UInt8 × Dev
  | 0, dst, _, _, d => (.running, 0, dst, d)
  | fuel + 1, dst, p, bufSize, d =>
    let size := min 0x7fffffff bufSize
    let (readSize, intr, bytes, d) := d.read size
    if readSize < 0 then
      if intr then readSome fuel dst p bufSize d else (.failed, 0, dst, d)
    else if p + bytes.length ≤ dst.length then
      (.done, readSize.toNat, dst.take p ++ bytes ++ dst.drop (p + bytes.length), d)
    else (.ub, 0, dst, d)

/-- The loop of `Socket::read` (socket.hpp:493-498); `fuel` bounds the rounds, each with `fuel` tries of `readSome`. -/
def Socket.readLoop : (fuel : Nat) → (dst : List UInt8) → (p bufSize : Nat) → Dev → Outcome × List UInt8 × Dev
  | 0, dst, _, _, d => (.running, dst, d)
  | fuel + 1, dst, p, bufSize, d =>
    if bufSize > 0 then
      match readSome (fuel + 1) dst p bufSize d with
      | (.done, readSize, dst, d) =>
        if readSize = 0 then (.failed, dst, d)
        else Socket.readLoop fuel dst (p + readSize) (bufSize - readSize) d
      | (o, _, dst, d) => (o, dst, d)
    else (.done, dst, d)

/-- `Socket::read(buf, bufSize)` (socket.hpp:490-499). -/
def Socket.read (fuel : Nat) (dst : List UInt8) (bufSize : Nat) (d : Dev) : Outcome × List UInt8 × Dev :=
  Socket.readLoop fuel dst 0 bufSize d

/-- The loop of `File::read` (file.hpp:294-298): without a check for 0. -/
def File.readLoop : (fuel : Nat) → (dst : List UInt8) → (p bufSize : Nat) → Dev → Outcome × List UInt8 × Dev
  | 0, dst, _, _, d => (.running, dst, d)
  | fuel + 1, dst, p, bufSize, d =>
    if bufSize > 0 then
      match readSome (fuel + 1) dst p bufSize d with
      | (.done, readSize, dst, d) => File.readLoop fuel dst (p + readSize) (bufSize - readSize) d
      | (o, _, dst, d) => (o, dst, d)
    else (.done, dst, d)

/-- `File::read(buf, bufSize)` (file.hpp:291-299). -/
def File.read (fuel : Nat) (dst : List UInt8) (bufSize : Nat) (d : Dev) : Outcome × List UInt8 × Dev :=
  File.readLoop fuel dst 0 bufSize d

end Verif.PartialIO
