import Verif.Model.Ssl
/-!
# Model of `sample/ssl_smpl.cpp`

The connection is the one of `Model/Ssl`.  Left out: the lines printed before the answer of the server, exceptions that are not
`cybozu::Exception`, the destructor (C77).
-/
namespace Verif.SslSmpl
open Verif.Ssl Verif.PartialIO

/-- `"GET " + path + " HTTP/1.0\r\n\r\n"` (ssl_smpl.cpp:19). -/
def request (path : List UInt8) : List UInt8 := [71, 69, 84, 32] ++ path ++ [32, 72, 84, 84, 80, 47, 49, 46, 48, 13, 10, 13, 10]

/-- `printf("%s", std::string(buf, readSize).c_str())` (ssl_smpl.cpp:31): up to the first NUL. -/
def shown (chunk : List UInt8) : List UInt8 := chunk.takeWhile (· ≠ 0)

/-- The loop (ssl_smpl.cpp:24-32): how it ends, what is printed, how much is added to `total`.  Simplified: the buffer is declared in the loop, so
its contents are indeterminate in each round; here they are those of the round before, and only what `readSome` has stored is used. -/
def body : (fuel : Nat) → (buf : List UInt8) → Conn → Outcome × List UInt8 × Nat × Conn
  | 0, _, d => (.running, [], 0, d)
  | fuel + 1, buf, d =>
    match readSome (fuel + 1) buf 0 1024 d with
    | (.done, readSize, buf, d) =>
      if readSize = 0 then (.done, [], 0, d)
      else
        let r := body fuel buf d
        (r.1, shown (buf.take readSize) ++ r.2.1, readSize + r.2.2.1, r.2.2.2)
    | (o, _, _, d) => (o, [], 0, d)

/-- What a run of the program shows: the text of the server, the number in the last line if it gets there, and the exit status (`none` if it runs
for ever within the rounds given). -/
structure Shown where
  text : List UInt8
  total : Option Int
  status : Option Nat

/-- Lines 21-37, the connection being made: `fw` rounds for `write`, `fb` for the loop.  `total` is cast to `int` (ssl_smpl.cpp:33). -/
def session (fw fb : Nat) (buf path : List UInt8) (d : Conn) : Shown × Conn :=
  match write fw (request path) d with
  | (.done, d) =>
    let r := body fb buf d
    match r.1 with
    | .done => (⟨r.2.1, some (wrapInt 32 r.2.2.1), some 0⟩, r.2.2.2)
    | .failed => (⟨r.2.1, none, some 1⟩, r.2.2.2)
    | _ => (⟨r.2.1, none, none⟩, r.2.2.2)
  | (.failed, d) => (⟨[], none, some 1⟩, d)
  | (_, d) => (⟨[], none, none⟩, d)

/-- `main` (ssl_smpl.cpp:5-38) after `argc--, argv++`; `sslNew` and `net` are the answers while connecting. -/
def main (fw fb : Nat) (buf : List UInt8) (argv : List (List UInt8)) (sslNew : Bool) (net : Net) (d : Conn) : Shown × Conn :=
  match argv with
  | _ :: path :: _ =>
    match construct sslNew with
    | (.ok s, _) => if (connect s net).1 then session fw fb buf path d else (⟨[], none, some 1⟩, d)
    | (.error _, _) => (⟨[], none, some 1⟩, d)
  | _ => (⟨[], none, some 1⟩, d)

end Verif.SslSmpl
