import Verif.Model.Common

/-!
# Model of the suffix sorter `include/sais.hxx` (without OpenMP, `maxthreads` = 1)

The array `SA` is a function from indices to integers; every access is checked against the size of the array it belongs to.
`index_type` is `int` and the elements may be `uint32_t` (fmindex.hpp:152-153): here they are integers, of absolute value at most `n`.
In a recursive call the text lies in the same array, directly above the part that the callee may use: the callee gets it as a value.
-/
namespace Verif.Sais

/-- The contents of an array. -/
abbrev Arr := Nat → Int

/-- `a[i] = v`. -/
def upd (a : Arr) (i : Nat) (v : Int) : Arr := fun x => if x = i then v else a x

/-- Reading `a[i]` from an array of `len` elements. -/
def rd (len : Nat) (a : Arr) (i : Int) : Res Int := if 0 ≤ i ∧ i < len then .ok (a i.toNat) else .ub

/-- Writing `a[i]` of an array of `len` elements. -/
def wr (len : Nat) (a : Arr) (i v : Int) : Res Arr := if 0 ≤ i ∧ i < len then .ok (upd a i.toNat v) else .ub

/-- Reading `T[i]` of a text of `n` characters. -/
def chr (T : Nat → Nat) (n : Nat) (i : Int) : Res Nat := if 0 ≤ i ∧ i < n then .ok (T i.toNat) else .ub

/-- `~j`. -/
def cpl (j : Int) : Int := -j - 1

/-- `for(...) a[i] = 0`, `cnt` elements from `i` on. -/
def zeroLoop (len : Nat) : (cnt i : Nat) → Arr → Res Arr
  | 0, _, a => .ok a
  | cnt + 1, i, a => do
    let a ← wr len a i 0
    zeroLoop len cnt (i + 1) a

/-- The bucket arrays `C` and `B`; they are one array (`B`) if `same` (sais.hxx:182, 197, 274, 291). -/
structure Buf where
  C : Arr
  B : Arr
  same : Bool

/-- The array `C`. -/
def Buf.cnt (u : Buf) : Arr := if u.same then u.B else u.C

/-- Replaces the array `C`. -/
def Buf.setC (u : Buf) (a : Arr) : Buf := if u.same then { u with B := a } else { u with C := a }

/-- `for(i = 0; i < n; ++i) { ++C[T[i]]; }` (sais.hxx:74). -/
def countLoop (T : Nat → Nat) (n k : Nat) : (cnt i : Nat) → Arr → Res Arr
  | 0, _, C => .ok C
  | cnt + 1, i, C => do
    let c ← chr T n i
    let v ← rd k C c
    let C ← wr k C c (v + 1)
    countLoop T n k cnt (i + 1) C

/-- `getCounts` (sais.hxx:46-76). -/
def getCounts (T : Nat → Nat) (n k : Nat) (u : Buf) : Res Buf := do
  let C ← zeroLoop k k 0 u.cnt
  let C ← countLoop T n k n 0 C
  return u.setC C

/-- The loops of `getBuckets` (sais.hxx:81-82). -/
def bucketLoop (k : Nat) (fin : Bool) : (cnt i : Nat) → (sum : Int) → Buf → Res Buf
  | 0, _, _, u => .ok u
  | cnt + 1, i, sum, u => do
    let c ← rd k u.cnt i
    let B ← wr k u.B i (if fin then sum + c else sum + c - c)
    bucketLoop k fin cnt (i + 1) (sum + c) { u with B := B }

/-- `getBuckets` (sais.hxx:77-83). -/
def getBuckets (k : Nat) (fin : Bool) (u : Buf) : Res Buf := bucketLoop k fin k 0 0 u

/-- The variables of `induceSA`: `SA`, `B`, `b - SA` and `c1`. -/
structure Ind where
  SA : Arr
  B : Arr
  b : Int
  c1 : Nat

/-- `if((c0 = T[--j]) != c1) { B[c1] = b - SA; b = SA + B[c1 = c0]; }` (sais.hxx:103, 112). -/
def switch (k : Nat) (s : Ind) (c0 : Nat) : Res Ind :=
  if c0 = s.c1 then .ok s
  else do
    let B ← wr k s.B s.c1 s.b
    let b ← rd k B c0
    return ⟨s.SA, B, b, c0⟩

/-- `((0 < j) && (T[j - 1] < c1)) ? ~j : j` (sais.hxx:99, 104). -/
def flagL (T : Nat → Nat) (n : Nat) (j : Int) (c1 : Nat) : Res Int :=
  if 0 < j then do
    let c ← chr T n (j - 1)
    return if c < c1 then cpl j else j
  else .ok j

/-- `((j == 0) || (T[j - 1] > c1)) ? ~j : j` (sais.hxx:113). -/
def flagS (T : Nat → Nat) (n : Nat) (j : Int) (c1 : Nat) : Res Int :=
  if j = 0 then .ok (cpl j)
  else do
    let c ← chr T n (j - 1)
    return if c1 < c then cpl j else j

/-- The body of the first loop of `induceSA` (sais.hxx:101-105). -/
def stepL (T : Nat → Nat) (n k i : Nat) (s : Ind) : Res Ind := do
  let j ← rd n s.SA i
  let SA ← wr n s.SA i (cpl j)
  if 0 < j then do
    let c0 ← chr T n (j - 1)
    let s ← switch k { s with SA := SA } c0
    let v ← flagL T n (j - 1) c0
    let SA ← wr n s.SA s.b v
    return { s with SA := SA, b := s.b + 1 }
  else return { s with SA := SA }

/-- The first loop (sais.hxx:100-106). -/
def loopL (T : Nat → Nat) (n k : Nat) : (cnt i : Nat) → Ind → Res Ind
  | 0, _, s => .ok s
  | cnt + 1, i, s => do
    let s ← stepL T n k i s
    loopL T n k cnt (i + 1) s

/-- The body of the second loop (sais.hxx:111-116). -/
def stepS (T : Nat → Nat) (n k i : Nat) (s : Ind) : Res Ind := do
  let j ← rd n s.SA i
  if 0 < j then do
    let c0 ← chr T n (j - 1)
    let s ← switch k s c0
    let v ← flagS T n (j - 1) c0
    let SA ← wr n s.SA (s.b - 1) v
    return { s with SA := SA, b := s.b - 1 }
  else do
    let SA ← wr n s.SA i (cpl j)
    return { s with SA := SA }

/-- The second loop, downwards (sais.hxx:110-117). -/
def loopS (T : Nat → Nat) (n k : Nat) : Nat → Ind → Res Ind
  | 0, s => .ok s
  | i + 1, s => do
    let s ← stepS T n k i s
    loopS T n k i s

/-- `if(C == B) { getCounts(T, C, n, k); }` (sais.hxx:96, 108). -/
def recount (T : Nat → Nat) (n k : Nat) (u : Buf) : Res Buf := if u.same then getCounts T n k u else .ok u

/-- The first half of `induceSA` (sais.hxx:96-106). -/
def induceL (T : Nat → Nat) (n k : Nat) (A : Arr) (u : Buf) : Res (Arr × Buf) := do
  let u ← recount T n k u
  let u ← getBuckets k false u
  let c1 ← chr T n ((n : Int) - 1)
  let b ← rd k u.B c1
  let v ← flagL T n ((n : Int) - 1) c1
  let SA ← wr n A b v
  let s ← loopL T n k n 0 ⟨SA, u.B, b + 1, c1⟩
  return (s.SA, { u with B := s.B })

/-- The second half of `induceSA` (sais.hxx:108-117). -/
def induceS (T : Nat → Nat) (n k : Nat) (A : Arr) (u : Buf) : Res (Arr × Buf) := do
  let u ← recount T n k u
  let u ← getBuckets k true u
  let b ← rd k u.B 0
  let s ← loopS T n k n ⟨A, u.B, b, 0⟩
  return (s.SA, { u with B := s.B })

/-- `induceSA` (sais.hxx:85-118). -/
def induceSA (T : Nat → Nat) (n k : Nat) (A : Arr) (u : Buf) : Res (Arr × Buf) := do
  let (A, u) ← induceL T n k A u
  induceS T n k A u

/-- The loop that finds the leftmost S positions from the right (sais.hxx:188-191, 203-206, 237-240, 260-263):
`body p c` runs for each of them, `c = T[p]`. -/
def scanLoop {σ : Type} (T : Nat → Nat) (n : Nat) (body : Nat → Nat → σ → Res σ) : (i c c1 : Nat) → σ → Res σ
  | 0, _, _, s => .ok s
  | i + 1, c, c1, s => do
    let c0 ← chr T n i
    if c0 < c1 + c then scanLoop T n body i 1 c0 s
    else if c ≠ 0 then do
      let s ← body (i + 1) c1 s
      scanLoop T n body i 0 c0 s
    else scanLoop T n body i c c0 s

/-- The whole loop with its start values. -/
def scan {σ : Type} (T : Nat → Nat) (n : Nat) (body : Nat → Nat → σ → Res σ) (s : σ) : Res σ := do
  let c1 ← chr T n ((n : Int) - 1)
  scanLoop T n body (n - 1) 0 c1 s

/-- `SA[--B[c]] = p` (sais.hxx:190, 205, 283, 300). -/
def place (n k p c : Nat) (s : Arr × Arr) : Res (Arr × Arr) := do
  let b ← rd k s.2 c
  let B ← wr k s.2 c (b - 1)
  let A ← wr n s.1 (b - 1) p
  return (A, B)

/-- The bucket arrays of a stage: new ones of `k` elements with contents `g`, or in the free part of `SA` (sais.hxx:179-182, 194-197, 271-274, 288-291). -/
def bufOf (A g : Arr) (fs n k : Nat) : Buf :=
  if fs < k then ⟨g, g, true⟩
  else if k ≤ fs - k then ⟨fun i => A (n + i), fun i => A (n + k + i), false⟩
  else ⟨fun i => A (n + i), fun i => A (n + i), true⟩

/-- The bucket arrays, if they were part of `SA`, go back to it; while they are in use only `SA[0..n-1]` is touched otherwise. -/
def putBack (A : Arr) (u : Buf) (fs n k : Nat) : Arr :=
  if fs < k then A
  else if k ≤ fs - k then fun x => if n ≤ x ∧ x < n + k then u.C (x - n) else if n + k ≤ x ∧ x < n + 2 * k then u.B (x - (n + k)) else A x
  else fun x => if n ≤ x ∧ x < n + k then u.B (x - n) else A x

/-- Stage 1, the sorting of the substrings (sais.hxx:177-208). -/
def stage1 (T : Nat → Nat) (fs n k : Nat) (A g : Arr) : Res Arr := do
  let u ← getCounts T n k (bufOf A g fs n k)
  let u ← getBuckets k true u
  let A ← zeroLoop n n 0 A
  let (A, B) ← scan T n (place n k) (A, u.B)
  let (A, u) ← induceSA T n k A { u with B := B }
  return putBack A u fs n k

/-- `for(j = p + 1; (j < n) && (c0 == (c1 = T[j])); ++j) { }` (sais.hxx:226): the final `j`; at most `cnt` steps. -/
def runLoop (T : Nat → Nat) (n c0 : Nat) : (cnt j : Nat) → Nat
  | 0, j => j
  | cnt + 1, j => if j < n ∧ c0 = T j then runLoop T n c0 cnt (j + 1) else j

/-- The conditions of the compaction (sais.hxx:225-227). -/
def lmsTest (T : Nat → Nat) (n : Nat) (p : Int) : Res Bool :=
  if 0 < p then do
    let a ← chr T n (p - 1)
    let c0 ← chr T n p
    if c0 < a then
      let j := runLoop T n c0 n (p.toNat + 1)
      return decide (j < n ∧ c0 < T j)
    else return false
  else .ok false

/-- The compaction (sais.hxx:223-229): the array and `m`. -/
def compactLoop (T : Nat → Nat) (lim n : Nat) : (cnt i m : Nat) → Arr → Res (Arr × Nat)
  | 0, _, m, A => .ok (A, m)
  | cnt + 1, i, m, A => do
    let p ← rd lim A i
    let t ← lmsTest T n p
    if t then do
      let A ← wr lim A m p
      compactLoop T lim n cnt (i + 1) (m + 1) A
    else compactLoop T lim n cnt (i + 1) m A

/-- `SA[m + ((i + 1) >> 1)] = j - i - 1; j = i + 1;` (sais.hxx:239). -/
def lenBody (lim m p : Nat) (s : Arr × Nat) : Res (Arr × Nat) := do
  let A ← wr lim s.1 (m + p / 2 : Nat) ((s.2 : Int) - p)
  return (A, p)

/-- `for(j = 0; (j < plen) && (T[p + j] == T[q + j]); ++j) { }`, then `j == plen` (sais.hxx:245-246). -/
def cmpLoop (T : Nat → Nat) (n : Nat) (p q : Int) : (cnt j : Nat) → Res Bool
  | 0, _ => .ok true
  | cnt + 1, j => do
    let a ← chr T n (p + j)
    let b ← chr T n (q + j)
    if a = b then cmpLoop T n p q cnt (j + 1) else return false

/-- `diff == false` (sais.hxx:243-247). -/
def sameName (T : Nat → Nat) (n : Nat) (p q plen qlen : Int) : Res Bool :=
  if plen = qlen then cmpLoop T n p q plen.toNat 0 else .ok false

/-- The naming of the substrings (sais.hxx:242-250): the array and the last name. -/
def nameLoop (T : Nat → Nat) (lim n m : Nat) : (cnt i name : Nat) → (q qlen : Int) → Arr → Res (Arr × Nat)
  | 0, _, name, _, _, A => .ok (A, name)
  | cnt + 1, i, name, q, qlen, A => do
    let p ← rd lim A i
    let plen ← rd lim A (m + p / 2)
    let eq ← sameName T n p q plen qlen
    if eq then do
      let A ← wr lim A (m + p / 2) name
      nameLoop T lim n m cnt (i + 1) name q qlen A
    else do
      let A ← wr lim A (m + p / 2) (name + 1 : Nat)
      nameLoop T lim n m cnt (i + 1) (name + 1) p plen A

/-- The names in the order of the text (sais.hxx:256-258), `r` is the start of `RA`; `i = m + cnt - 1` downwards. -/
def gatherLoop (lim m r : Nat) : (cnt : Nat) → (j : Int) → Arr → Res Arr
  | 0, _, A => .ok A
  | cnt + 1, j, A => do
    let v ← rd lim A (m + cnt : Nat)
    if v ≠ 0 then do
      let A ← wr lim A (r + j) (v - 1)
      gatherLoop lim m r cnt (j - 1) A
    else gatherLoop lim m r cnt j A

/-- `RA[j--] = i + 1` (sais.hxx:262). -/
def refillBody (lim r p : Nat) (s : Arr × Int) : Res (Arr × Int) := do
  let A ← wr lim s.1 (r + s.2) p
  return (A, s.2 - 1)

/-- `for(i = 0; i < m; ++i) { SA[i] = RA[SA[i]]; }` (sais.hxx:267). -/
def mapLoop (lim r : Nat) : (cnt i : Nat) → Arr → Res Arr
  | 0, _, A => .ok A
  | cnt + 1, i, A => do
    let v ← rd lim A i
    let w ← rd lim A (r + v)
    let A ← wr lim A i w
    mapLoop lim r cnt (i + 1) A

/-- Sorted leftmost S positions go to the ends of their buckets (sais.hxx:281-284, 298-301), downwards. -/
def putLoop (T : Nat → Nat) (n k : Nat) : Nat → Arr × Arr → Res (Arr × Arr)
  | 0, s => .ok s
  | i + 1, s => do
    let j ← rd n s.1 i
    let A ← wr n s.1 i 0
    let c ← chr T n j
    let s ← place n k j.toNat c (A, s.2)
    putLoop T n k i s

/-- `((0 < j) && (T[j - 1] > c1)) ? ~((index_type)T[j - 1]) : j` (sais.hxx:149). -/
def flagB (T : Nat → Nat) (n : Nat) (j : Int) (c1 : Nat) : Res Int :=
  if 0 < j then do
    let c ← chr T n (j - 1)
    return if c1 < c then cpl c else j
  else .ok j

/-- The body of the first loop of `computeBWT` (sais.hxx:133-139). -/
def bwtStepL (T : Nat → Nat) (n k i : Nat) (s : Ind) : Res Ind := do
  let j ← rd n s.SA i
  if 0 < j then do
    let c0 ← chr T n (j - 1)
    let SA ← wr n s.SA i (cpl c0)
    let s ← switch k { s with SA := SA } c0
    let v ← flagL T n (j - 1) c0
    let SA ← wr n s.SA s.b v
    return { s with SA := SA, b := s.b + 1 }
  else if j ≠ 0 then do
    let SA ← wr n s.SA i (cpl j)
    return { s with SA := SA }
  else return s

/-- The first loop (sais.hxx:132-140). -/
def bwtLoopL (T : Nat → Nat) (n k : Nat) : (cnt i : Nat) → Ind → Res Ind
  | 0, _, s => .ok s
  | cnt + 1, i, s => do
    let s ← bwtStepL T n k i s
    bwtLoopL T n k cnt (i + 1) s

/-- The body of the second loop (sais.hxx:145-154); the second component is `pidx`. -/
def bwtStepS (T : Nat → Nat) (n k i : Nat) (s : Ind × Int) : Res (Ind × Int) := do
  let j ← rd n s.1.SA i
  if 0 < j then do
    let c0 ← chr T n (j - 1)
    let SA ← wr n s.1.SA i c0
    let t ← switch k { s.1 with SA := SA } c0
    let v ← flagB T n (j - 1) c0
    let SA ← wr n t.SA (t.b - 1) v
    return ({ t with SA := SA, b := t.b - 1 }, s.2)
  else if j ≠ 0 then do
    let SA ← wr n s.1.SA i (cpl j)
    return ({ s.1 with SA := SA }, s.2)
  else return (s.1, i)

/-- The second loop, downwards (sais.hxx:144-155). -/
def bwtLoopS (T : Nat → Nat) (n k : Nat) : Nat → Ind × Int → Res (Ind × Int)
  | 0, s => .ok s
  | i + 1, s => do
    let s ← bwtStepS T n k i s
    bwtLoopS T n k i s

/-- The first half of `computeBWT` (sais.hxx:127-140). -/
def bwtL (T : Nat → Nat) (n k : Nat) (A : Arr) (u : Buf) : Res (Arr × Buf) := do
  let u ← recount T n k u
  let u ← getBuckets k false u
  let c1 ← chr T n ((n : Int) - 1)
  let b ← rd k u.B c1
  let v ← flagL T n ((n : Int) - 1) c1
  let SA ← wr n A b v
  let s ← bwtLoopL T n k n 0 ⟨SA, u.B, b + 1, c1⟩
  return (s.SA, { u with B := s.B })

/-- The second half of `computeBWT` (sais.hxx:141-156). -/
def bwtS (T : Nat → Nat) (n k : Nat) (A : Arr) (u : Buf) : Res (Int × Arr × Buf) := do
  let u ← recount T n k u
  let u ← getBuckets k true u
  let b ← rd k u.B 0
  let (s, pidx) ← bwtLoopS T n k n (⟨A, u.B, b, 0⟩, -1)
  return (pidx, s.SA, { u with B := s.B })

/-- `computeBWT` (sais.hxx:119-157): `pidx` and the arrays. -/
def computeBWT (T : Nat → Nat) (n k : Nat) (A : Arr) (u : Buf) : Res (Int × Arr × Buf) := do
  let (A, u) ← bwtL T n k A u
  bwtS T n k A u

/-- The end of stage 3 (sais.hxx:285-286, 302-303): the return value and the arrays. -/
def finish (isbwt : Bool) (T : Nat → Nat) (n k : Nat) (A : Arr) (u : Buf) : Res (Int × Arr × Buf) :=
  if isbwt then computeBWT T n k A u
  else do
    let (A, u) ← induceSA T n k A u
    return (0, A, u)

/-- Stage 3 (sais.hxx:270-304). -/
def stage3 (alloc : Nat → Nat → Bool) (d : Nat) (T : Nat → Nat) (fs n k m : Nat) (isbwt : Bool) (A g : Arr) : Res (Int × Arr) :=
  if fs < k ∧ alloc d k = false then .throw
  else do
    let u ← getCounts T n k (bufOf A g fs n k)
    let u ← getBuckets k true u
    let A ← zeroLoop n (n - m) m A
    let (A, B) ← putLoop T n k m (A, u.B)
    let (pidx, A, u) ← finish isbwt T n k A { u with B := B }
    return (pidx, putBack A u fs n k)

/-- `suffixsort` (sais.hxx:160-310): the return value and the array. `alloc _ k` tells whether `new` can give `k`
elements (else it throws); its first argument counts the allocations. `g` is what they contain.  The depth of the recursion is bounded by the first argument (`n` suffices: C90). -/
def suffixsort (alloc : Nat → Nat → Bool) (g : Arr) : (depth : Nat) → (T : Nat → Nat) → (fs n k : Nat) → Bool → Arr → Res (Int × Arr)
  | 0, _, _, _, _, _, _ => .ub
  | depth + 1, T, fs, n, k, isbwt, A => do
    if fs < k ∧ alloc (2 * depth + 1) k = false then .throw
    else do
      let lim := n + fs
      let A ← stage1 T fs n k A g
      let (A, m) ← compactLoop T lim n n 0 0 A
      let A ← zeroLoop lim (n / 2) m A
      let (A, _) ← scan T n (fun p _ => lenBody lim m p) (A, n)
      let (A, name) ← nameLoop T lim n m m 0 0 n 0 A
      if name < m then do
        let r := n + fs - m
        let A ← gatherLoop lim m r (n / 2) ((m : Int) - 1) A
        let (e, A) ← suffixsort alloc g depth (fun i => (A (r + i)).toNat) (fs + n - m * 2) m name false A
        if e ≠ 0 then return (-2, A)
        else do
          let (A, _) ← scan T n (fun p _ => refillBody lim r p) (A, (m : Int) - 1)
          let A ← mapLoop lim r m 0 A
          stage3 alloc (2 * depth) T fs n k m isbwt A g
      else stage3 alloc (2 * depth) T fs n k m isbwt A g

/-- `saisxx` (sais.hxx:323-332): an exception becomes -2; what `SA` then contains is not modelled. -/
def saisxx (alloc : Nat → Nat → Bool) (g : Arr) (T : Nat → Nat) (A : Arr) (n k : Int) : Res (Int × Arr) :=
  if n < 0 ∨ k ≤ 0 then .ok (-1, A)
  else if n ≤ 1 then .ok (0, if n = 1 then upd A 0 0 else A)
  else
    match suffixsort alloc g n.toNat T 0 n.toNat k.toNat false A with
    | .ok r => .ok r
    | .throw => .ok (-2, A)
    | .ub => .ub

/-- `for(i = from; i < to; ++i) { U[i + d] = (char_type)A[i]; }` (sais.hxx:354-355), `cnt` steps. -/
def copyLoop (n d : Nat) (A : Arr) : (cnt i : Nat) → Arr → Res Arr
  | 0, _, U => .ok U
  | cnt + 1, i, U => do
    let v ← rd n A i
    let U ← wr n U (i + d : Nat) v
    copyLoop n d A cnt (i + 1) U

/-- The copying of `saisxx_bwt` (sais.hxx:352-357) if `0 <= pidx`: the return value and `U`. -/
def bwtOut (T : Nat → Nat) (n : Nat) (pidx : Int) (A U : Arr) : Res (Int × Arr) :=
  if 0 ≤ pidx then do
    let c ← chr T n ((n : Int) - 1)
    let U ← wr n U 0 c
    let U ← copyLoop n 1 A pidx.toNat 0 U
    let U ← copyLoop n 0 A (n - (pidx.toNat + 1)) (pidx.toNat + 1) U
    return (pidx + 1, U)
  else .ok (pidx, U)

/-- `saisxx_bwt` (sais.hxx:343-361): the return value and `U`; an exception becomes -2. -/
def saisxxBwt (alloc : Nat → Nat → Bool) (g : Arr) (T : Nat → Nat) (U A : Arr) (n k : Int) : Res (Int × Arr) :=
  if n < 0 ∨ k ≤ 0 then .ok (-1, U)
  else if n ≤ 1 then
    if n = 1 then do
      let c ← chr T 1 0
      let U ← wr 1 U 0 c
      return (n, U)
    else .ok (n, U)
  else
    match suffixsort alloc g n.toNat T 0 n.toNat k.toNat true A with
    | .ok (pidx, A) => bwtOut T n.toNat pidx A U
    | .throw => .ok (-2, U)
    | .ub => .ub

/-- A vector of characters as the argument `T`; only its elements are ever read (`chr`). -/
def textOf (v : List Nat) : Nat → Nat := fun i => v.getD i 0

/-- The first `n` elements of `SA` as a vector of unsigned numbers (`Vec32 sa`, fmindex.hpp:151-153). -/
def listOf (A : Arr) (n : Nat) : List Nat := (List.range n).map fun i => (A i).toNat

/-- The conversion `(int)x` of a `size_t` (two's complement; fmindex.hpp:153). -/
def toInt (x : Nat) : Int := if x % 2 ^ 32 < 2 ^ 31 then (x % 2 ^ 32 : Nat) else (x % 2 ^ 32 : Nat) - 2 ^ 32

/-- The call of the sorter in `FMindexT::init` (fmindex.hpp:150-153): `sa` starts with zeros; the return value and `sa`.
The last case does not occur (C90). -/
def sorter (alloc : Nat → Nat → Bool) (g : Arr) (charNum : Nat) (v : List Nat) : Int × List Nat :=
  match saisxx alloc g (textOf v) (fun _ => 0) (toInt v.length) (toInt charNum) with
  | .ok (e, A) => (e, listOf A v.length)
  | _ => (0, [])

end Verif.Sais
