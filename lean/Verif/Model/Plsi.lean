import Verif.Model.NlpRandom
import Verif.Model.TopScore
import Mathlib.Analysis.SpecialFunctions.Pow.Real

/-!
# Model of `Plsi` in `include/cybozu/nlp/plsi.hpp`

* A `double` is modelled by a real number and every operation is exact.  Where the code would leave the
  real numbers (division by zero, logarithm of a number that is not positive, a power without a value)
  the model stops with `.ub`; in the code infinities and NaNs appear there.
* Keys are unbounded integers; `std::map` is an association list.
* A row of `matrix_` is the list of the positions that iteration of the `SparseVector<bool>` visits
  (C38, C39 are about that iteration).
* `K` is a natural number below `2^31` (a negative `K` makes `resize` throw).
* `dump` is not modelled.
-/
namespace Verif.Plsi

open Verif.NlpRandom Verif.Random

/-- The members (plsi.hpp:57-67). -/
structure Plsi where
  users : List (Int × Nat)
  userlist : List Int
  items : List (Int × Nat)
  itemlist : List Int
  matrix : List (List Nat)
  z : List ℝ
  userZ : List (List ℝ)
  itemZ : List (List ℝ)

/-- A new object. -/
def Plsi.empty : Plsi := ⟨[], [], [], [], [], [], [], []⟩

/-- `get_item_id` (plsi.hpp:77-84). -/
def getItemId (s : Plsi) (item : Int) : Nat × Plsi :=
  match s.items.lookup item with
  | some id => (id, s)
  | none =>
    let id := s.itemlist.length
    (id, { s with items := s.items ++ [(item, id)], itemlist := s.itemlist ++ [item],
                  matrix := s.matrix ++ [[]] })

/-- `get_user_id` (plsi.hpp:90-96). -/
def getUserId (s : Plsi) (user : Int) : Nat × Plsi :=
  match s.users.lookup user with
  | some id => (id, s)
  | none =>
    let id := s.userlist.length
    (id, { s with users := s.users ++ [(user, id)], userlist := s.userlist ++ [user] })

/-- `PositionTbl::set` refuses a position that does not come after the last one, or has more than 32 bits (sparse.hpp:38-43). -/
def refused (old : List Nat) (u : Nat) : Bool :=
  match old.getLast? with
  | some last => u ≤ last || 2 ^ 32 ≤ u
  | none => 2 ^ 32 ≤ u

/-- `SparseVector::set` (sparse.hpp:220-227, 233-237): the entries are put behind those that are there. -/
def appendRow (old : List Nat) : List Nat → Res (List Nat)
  | [] => .ok old
  | u :: us => if refused old u then .throw else appendRow (old ++ [u]) us

/-- `getItem(item).set(map)` (plsi.hpp:86-88, sample/plsi_smpl.cpp:28); `row` are the keys of the map. -/
def setItem (s : Plsi) (item : Int) (row : List Nat) : Res Plsi := do
  let t := getItemId s item
  let old ← at? t.2.matrix t.1
  let r ← appendRow old row
  let m ← putAt t.2.matrix t.1 r
  return { t.2 with matrix := m }

/-- `get_item_key` (plsi.hpp:98-100). -/
def getItemKey (s : Plsi) (id : Nat) : Res Int := at? s.itemlist id

/-- `x / y` in the real numbers. -/
noncomputable def fdiv (x y : ℝ) : Res ℝ := open Classical in if y = 0 then .ub else .ok (x / y)

/-- `log(x)`. -/
noncomputable def flog (x : ℝ) : Res ℝ := open Classical in if 0 < x then .ok (Real.log x) else .ub

/-- `pow(x, y)`. -/
noncomputable def fpow (x y : ℝ) : Res ℝ :=
  open Classical in if 0 < x ∨ (x = 0 ∧ 0 ≤ y) then .ok (x ^ y) else .ub

/-- `v[k][i]`. -/
def at2? (v : List (List ℝ)) (k i : Nat) : Res ℝ := do
  let row ← at? v k
  at? row i

/-- `v[k][i] += p`. -/
noncomputable def bump (v : List (List ℝ)) (k i : Nat) (p : ℝ) : Res (List (List ℝ)) := do
  let row ← at? v k
  let x ← at? row i
  putAt v k (row.set i (x + p))

/-- `for (k..) { double p = f(k); vec.push_back(p); sum += p; }`: the loops of plsi.hpp:111-115, 120-122,
140-144, 152-156, 160-162, 171-173, 191-193, 207-209 and 279-284 (where `p_z_xy[k] = p` fills a vector
of the right size); `n` rounds left.  Loops that do not keep the terms drop the first result. -/
noncomputable def accum (f : Nat → Res ℝ) : Nat → Nat → List ℝ → ℝ → Res (List ℝ × ℝ)
  | 0, _, ps, sum => .ok (ps, sum)
  | n + 1, k, ps, sum => do
    let p ← f k
    accum f n (k + 1) (ps ++ [p]) (sum + p)

/-- `z_[k] * user_z_[k][u]` (plsi.hpp:112, 192). -/
noncomputable def pzx (s : Plsi) (u k : Nat) : Res ℝ := do
  let a ← at? s.z k
  let b ← at2? s.userZ k u
  return a * b

/-- `z_[k] * user_z_[k][u] * item_z_[k][y]` (plsi.hpp:208, 281). -/
noncomputable def pzxy (s : Plsi) (u y k : Nat) : Res ℝ := do
  let a ← at? s.z k
  let b ← at2? s.userZ k u
  let c ← at2? s.itemZ k y
  return a * b * c

/-- `for (item_id..) ranking.add(score(item_id), item_id);` (plsi.hpp:118-124, 137-147, 157-165,
168-175); `n` rounds left. -/
noncomputable def rank (score : Nat → Res ℝ) : Nat → Nat → TopScore.Top ℝ Nat → Res (TopScore.Top ℝ Nat)
  | 0, _, t => .ok t
  | n + 1, i, t => do
    let v ← score i
    let t ← TopScore.add t v i
    rank score n (i + 1) t

/-- The score of an item for a user (plsi.hpp:119-123). -/
noncomputable def itemScore (s : Plsi) (pz : List ℝ) (px : ℝ) (i : Nat) : Res ℝ := do
  let (_, sc) ← accum (fun k => do
    let a ← at2? s.itemZ k i
    let b ← at? pz k
    return a * b) s.z.length 0 [] 0
  fdiv sc px

/-- `search_items` (plsi.hpp:105-126). -/
noncomputable def searchItems (s : Plsi) (user : Int) (top : Nat) : Res (List (ℝ × Nat) × Plsi) := do
  let (uid, s) := getUserId s user
  let (pz, px) ← accum (pzx s uid) s.z.length 0 [] 0
  let t ← rank (itemScore s pz px) s.items.length 0 (TopScore.make (0, 0) top)
  return ((TopScore.getTable (0, 0) t).2, s)

/-- `SEARCH_TYPE` (plsi.hpp:49-53). -/
inductive Search where
  | joint | conditional | posterior
deriving DecidableEq

/-- `z_[k] * item_z_[k][y]` (plsi.hpp:141, 153; the factors of line 141 are exchanged). -/
noncomputable def pzy (s : Plsi) (y k : Nat) : Res ℝ := do
  let a ← at? s.z k
  let b ← at2? s.itemZ k y
  return a * b

/-- The score of plsi.hpp:138-146. -/
noncomputable def posteriorScore (s : Plsi) (target i : Nat) : Res ℝ := do
  let (ps, py) ← accum (pzy s i) s.z.length 0 [] 0
  let (_, sc) ← accum (fun k => do
    let a ← at2? s.itemZ k target
    let b ← at? ps k
    return a * b) s.z.length 0 [] 0
  fdiv sc py

/-- The score of plsi.hpp:169-174. -/
noncomputable def jointScore (s : Plsi) (target i : Nat) : Res ℝ := do
  let (_, sc) ← accum (fun k => do
    let a ← at2? s.itemZ k i
    let b ← at2? s.itemZ k target
    let c ← at? s.z k
    return a * b * c) s.z.length 0 [] 0
  return sc

/-- `similar_items` (plsi.hpp:131-178). -/
noncomputable def similarItems (s : Plsi) (item : Int) (ty : Search) (top : Nat) :
    Res (List (ℝ × Nat) × Plsi) := do
  let (tid, s) := getItemId s item
  let t ← match ty with
    | .posterior => rank (posteriorScore s tid) s.items.length 0 (TopScore.make (0, 0) top)
    | .conditional => do
      let (pz, py) ← accum (pzy s tid) s.z.length 0 [] 0
      rank (itemScore s pz py) s.items.length 0 (TopScore.make (0, 0) top)
    | .joint => rank (jointScore s tid) s.items.length 0 (TopScore.make (0, 0) top)
  return ((TopScore.getTable (0, 0) t).2, s)

/-- The inner loop of `perplexity` over one row (plsi.hpp:201-211); the new `(denom, sum)`. -/
noncomputable def perpRow (s : Plsi) (px : List ℝ) (y : Nat) : List Nat → Nat × ℝ → Res (Nat × ℝ)
  | [], acc => .ok acc
  | u :: us, (denom, sum) => do
    if denom + 1 ≥ 2 ^ 31 then .ub
    else
      let (_, p) ← accum (pzxy s u y) s.z.length 0 [] 0
      let d ← at? px u
      let q ← fdiv p d
      let l ← flog q
      perpRow s px y us (denom + 1, sum + l)

/-- The outer loop (plsi.hpp:199-212). -/
noncomputable def perpRows (s : Plsi) (px : List ℝ) : List (List Nat) → Nat → Nat × ℝ → Res (Nat × ℝ)
  | [], _, acc => .ok acc
  | row :: rows, y, acc => do
    let acc ← perpRow s px y row acc
    perpRows s px rows (y + 1) acc

/-- `perplexity` (plsi.hpp:183-214). -/
noncomputable def perplexity (s : Plsi) : Res ℝ := do
  let (px, _) ← accum (fun u => do
    let (_, p) ← accum (pzx s u) s.z.length 0 [] 0
    return p) s.users.length 0 [] 0
  let (denom, sum) ← perpRows s px s.matrix 0 (0, 0)
  let e ← fdiv (-sum) denom
  return Real.exp e

/-- `for (j..) { double r = rand.getDouble(); ivec.push_back(r); s += r; }` (plsi.hpp:237-241). -/
noncomputable def fillRand : Nat → Uniform → List ℝ → ℝ → List ℝ × ℝ × Uniform
  | 0, g, iv, s => (iv, s, g)
  | n + 1, g, iv, s =>
    let (r, g) := g.getDouble
    fillRand n g (iv ++ [r]) (s + r)

/-- `for (j..) ivec[j] /= s;` (plsi.hpp:242); `n` rounds left. -/
noncomputable def normRow (s : ℝ) : Nat → Nat → List ℝ → Res (List ℝ)
  | 0, _, iv => .ok iv
  | n + 1, j, iv => do
    let x ← at? iv j
    let q ← fdiv x s
    let iv ← putAt iv j q
    normRow s n (j + 1) iv

/-- `for (j..) uvec.push_back(1.0/M);` (plsi.hpp:232). -/
noncomputable def fillUser (M : Nat) (uvec : List ℝ) : Res (List ℝ) :=
  if M = 0 then .ok uvec
  else do
    let x ← fdiv 1 M
    return uvec ++ List.replicate M x

/-- The loop of `startLearning` (plsi.hpp:226-243); `n` rounds left. -/
noncomputable def startLoop (K M N : Nat) : Nat → Nat → Uniform → Plsi → Res Plsi
  | 0, _, _, s => .ok s
  | n + 1, k, g, s => do
    let inv ← fdiv 1 K
    let z := s.z ++ [inv]
    let uvec ← at? s.userZ k
    let uvec ← fillUser M uvec
    let userZ ← putAt s.userZ k uvec
    let ivec ← at? s.itemZ k
    let (ivec, sum, g) := fillRand N g ivec 0
    let ivec ← normRow sum N 0 ivec
    let itemZ ← putAt s.itemZ k ivec
    startLoop K M N n (k + 1) g { s with z := z, userZ := userZ, itemZ := itemZ }

/-- `std::vector::resize`. -/
def vresize {α : Type} (d : α) (n : Nat) (v : List α) : List α := v.take n ++ List.replicate (n - v.length) d

/-- `startLearning` (plsi.hpp:219-245). -/
noncomputable def startLearning (s : Plsi) (K : Nat) : Res Plsi :=
  let s := { s with userZ := vresize [] K s.userZ, itemZ := vresize [] K s.itemZ }
  startLoop K s.users.length s.items.length K 0 (Uniform.make (1 / 4) (3 / 4) 0) s

/-- The local variables of `step` (plsi.hpp:256-266). -/
structure Acc where
  zN : List ℝ
  userN : List (List ℝ)
  itemN : List (List ℝ)
  denom : Nat
  lik : ℝ

/-- The normalisation and M-step of one observation (plsi.hpp:287-293); `n` rounds left. -/
noncomputable def mLoop (ps : List ℝ) (sum : ℝ) (u y : Nat) : Nat → Nat → Acc → Res Acc
  | 0, _, a => .ok a
  | n + 1, k, a => do
    let x ← at? ps k
    let p ← fdiv x sum
    let userN ← bump a.userN k u p
    let itemN ← bump a.itemN k y p
    let c ← at? a.zN k
    let zN ← putAt a.zN k (c + p)
    mLoop ps sum u y n (k + 1) { a with zN := zN, userN := userN, itemN := itemN }

/-- One observation (plsi.hpp:273-294). -/
noncomputable def observe (s : Plsi) (beta : ℝ) (y u : Nat) (a : Acc) : Res Acc := do
  if a.denom + 1 ≥ 2 ^ 31 then .ub
  else
    let (ps, sum) ← accum (fun k => do
      let x ← pzxy s u y k
      fpow x beta) s.z.length 0 [] 0
    let a ← mLoop ps sum u y s.z.length 0 { a with denom := a.denom + 1 }
    let l ← flog sum
    return { a with lik := a.lik + l }

/-- The loop over one row (plsi.hpp:272-295). -/
noncomputable def rowLoop (s : Plsi) (beta : ℝ) (y : Nat) : List Nat → Acc → Res Acc
  | [], a => .ok a
  | u :: us, a => do
    let a ← observe s beta y u a
    rowLoop s beta y us a

/-- The loop over the rows (plsi.hpp:270-296). -/
noncomputable def rowsLoop (s : Plsi) (beta : ℝ) : List (List Nat) → Nat → Acc → Res Acc
  | [], _, a => .ok a
  | row :: rows, y, a => do
    let a ← rowLoop s beta y row a
    rowsLoop s beta rows (y + 1) a

/-- `for (i..) row[i] = num[i] / d;` (plsi.hpp:302-307); `n` rounds left. -/
noncomputable def updRow (num : List ℝ) (d : ℝ) : Nat → Nat → List ℝ → Res (List ℝ)
  | 0, _, row => .ok row
  | n + 1, i, row => do
    let x ← at? num i
    let q ← fdiv x d
    let row ← putAt row i q
    updRow num d n (i + 1) row

/-- The update (plsi.hpp:299-308); `n` rounds left. -/
noncomputable def updLoop (a : Acc) : Nat → Nat → Plsi → Res Plsi
  | 0, _, s => .ok s
  | n + 1, k, s => do
    let zn ← at? a.zN k
    let q ← fdiv zn a.denom
    let z ← putAt s.z k q
    let inum ← at? a.itemN k
    let irow ← at? s.itemZ k
    let irow ← updRow inum zn s.items.length 0 irow
    let itemZ ← putAt s.itemZ k irow
    let unum ← at? a.userN k
    let urow ← at? s.userZ k
    let urow ← updRow unum zn s.users.length 0 urow
    let userZ ← putAt s.userZ k urow
    updLoop a n (k + 1) { s with z := z, itemZ := itemZ, userZ := userZ }

/-- `step` (plsi.hpp:252-312): the returned value and the new state. -/
noncomputable def step (s : Plsi) (beta : ℝ) : Res (ℝ × Plsi) := do
  let K := s.z.length
  let a ← rowsLoop s beta s.matrix 0
    ⟨List.replicate K 0, List.replicate K (List.replicate s.users.length 0),
     List.replicate K (List.replicate s.items.length 0), 0, 0⟩
  let s' ← updLoop a K 0 s
  return (a.lik, s')

/-- Several calls of `step()`: the returned values and the last state. -/
noncomputable def steps (beta : Nat → ℝ) : Nat → Nat → Plsi → Res (List ℝ × Plsi)
  | 0, _, s => .ok ([], s)
  | n + 1, i, s => do
    let (l, s) ← step s (beta i)
    let (ls, s) ← steps beta n (i + 1) s
    return (l :: ls, s)

end Verif.Plsi
