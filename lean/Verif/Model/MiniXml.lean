import Verif.Model.Config

/-!
# Model of `include/cybozu/minixml.hpp`

A `std::string` is its bytes, a `std::map` the sequence of its entries in iteration order, an input iterator the bytes that
remain.  Stack depth is not modelled (`parseNode` and `operator<<` recurse once per nesting level).
-/
namespace Verif.MiniXml

open Verif.Config (Str place)

/-- The body of the loop of `escape` (minixml.hpp:25-45). -/
def escapeChar (c : UInt8) : Str :=
  if c = 38 then [38, 97, 109, 112, 59]
  else if c = 60 then [38, 108, 116, 59]
  else if c = 62 then [38, 103, 116, 59]
  else if c = 39 then [38, 97, 112, 111, 115, 59]
  else if c = 34 then [38, 113, 117, 111, 116, 59]
  else [c]

/-- `escape` (minixml.hpp:21-48). -/
def escape (str : Str) : Str := str.foldl (fun ret c => ret ++ escapeChar c) []

/-- `memcmp(&str[i], lit, len) == 0`; the C++ string has a terminating zero, so `&str[n]` may be formed. -/
def memcmpEq (str : Str) (i : Nat) (lit : Str) : Res Bool :=
  if i + lit.length ≤ str.length + 1 then .ok (((str ++ [0]).drop i).take lit.length = lit) else .ub

/-- `n - i >= k && memcmp(&str[i + 1], lit, ...) == 0`, which occurs five times in `unescape`. -/
def entityAt (str : Str) (i k : Nat) (lit : Str) : Res Bool := if str.length - i ≥ k then memcmpEq str (i + 1) lit else .ok false

/-- The loop of `unescape` (minixml.hpp:53-77). -/
def unescapeLoop (str : Str) : (fuel i : Nat) → (ret : Str) → Res Str
  | 0, _, _ => .ub
  | fuel + 1, i, ret =>
    if i < str.length then do
      let c ← at? str i
      if c = 38 then do
        if ← entityAt str i 5 [97, 109, 112, 59] then unescapeLoop str fuel (i + 4 + 1) (ret ++ [38])
        else if ← entityAt str i 4 [108, 116, 59] then unescapeLoop str fuel (i + 3 + 1) (ret ++ [60])
        else if ← entityAt str i 4 [103, 116, 59] then unescapeLoop str fuel (i + 3 + 1) (ret ++ [62])
        else if ← entityAt str i 6 [97, 112, 111, 115, 59] then unescapeLoop str fuel (i + 5 + 1) (ret ++ [39])
        else if ← entityAt str i 6 [113, 117, 111, 116, 59] then unescapeLoop str fuel (i + 5 + 1) (ret ++ [34])
        else .throw
      else unescapeLoop str fuel (i + 1) (ret ++ [c])
    else .ok ret

/-- `unescape` (minixml.hpp:50-79). -/
def unescape (fuel : Nat) (str : Str) : Res Str := unescapeLoop str fuel 0 []

/-- `Attributes` (minixml.hpp:81-83). -/
abbrev Attrs := List (Str × Str)

/-- `attr[key] = val` (minixml.hpp:97-100). -/
def setAttr (m : Attrs) (key val : Str) : Attrs :=
  if m.any (fun y => y.1 = key) then m.map fun y => if y.1 = key then (y.1, val) else y else place m (key, val)

/-- `Attributes::query` (minixml.hpp:85-90). -/
def Attrs.query (m : Attrs) (key : Str) : Option Str := (m.find? (fun y => y.1 = key)).map (·.2)

/-- `Node` (minixml.hpp:125-130); the parent pointer is left out. -/
inductive Node where
  | mk (name : Str) (attr : Attrs) (content : Str) (child : List Node)

/-- `Node::name` -/
def Node.name : Node → Str | .mk n _ _ _ => n
/-- `Node::attr` -/
def Node.attr : Node → Attrs | .mk _ a _ _ => a
/-- `Node::content` -/
def Node.content : Node → Str | .mk _ _ c _ => c
/-- `Node::child` -/
def Node.child : Node → List Node | .mk _ _ _ c => c

mutual
/-- `Node::getFirstTagByName` (minixml.hpp:154-164). -/
def getFirst (v : Str) : Node → Option Node
  | .mk name attr content child => if name = v then some (.mk name attr content child) else getFirstList v child
/-- The loop of `getFirstTagByName` (minixml.hpp:159-163). -/
def getFirstList (v : Str) : List Node → Option Node
  | [] => none
  | n :: ns =>
    match getFirst v n with
    | some p => some p
    | none => getFirstList v ns
end

/-- `operator<<(os, Attributes)` (minixml.hpp:113-119). -/
def printAttrs (m : Attrs) : Str := (m.map fun i => [32] ++ i.1 ++ [61, 34] ++ i.2 ++ [34]).flatten

mutual
/-- `operator<<(os, Node)` (minixml.hpp:179-187). -/
def printNode : Node → Str
  | .mk name attr _ child => [60] ++ name ++ printAttrs attr ++ [62] ++ printList child ++ [60, 47] ++ name ++ [62]
/-- The loop of `operator<<` (minixml.hpp:182-184). -/
def printList : List Node → Str
  | [] => []
  | n :: ns => printNode n ++ printList ns
end

/-- `isSpace` (minixml.hpp:190-193). -/
def isSpace (c : UInt8) : Bool := c = 32 || c = 9 || c = 13 || c = 10
/-- `isQuote` (minixml.hpp:195-198). -/
def isQuote (c : UInt8) : Bool := c = 34 || c = 39
/-- `isEqual` (minixml.hpp:200-203). -/
def isEqual (c : UInt8) : Bool := c = 61
/-- `isName` (minixml.hpp:205-208). -/
def isName (c : UInt8) : Bool := !isSpace c && !isEqual c && !isQuote c
/-- `isName2` (minixml.hpp:210-213). -/
def isName2 (c : UInt8) : Bool := !isSpace c && !isEqual c && !isQuote c && c ≠ 62

/-- `TagType` (minixml.hpp:225-229). -/
inductive TagType where
  | begin | end | complete
  deriving DecidableEq

/-- `InputStream::query` (minixml.hpp:244-248): `*begin_`, undefined at the end. -/
def query (s : Str) : Res UInt8 := at? s 0
/-- `InputStream::inc` (minixml.hpp:249-253): undefined at the end. -/
def inc : Str → Res Str
  | [] => .ub
  | _ :: s => .ok s
/-- `InputStream::next` (minixml.hpp:254-258). -/
def next : Str → Res (UInt8 × Str)
  | [] => .throw
  | c :: s => .ok (c, s)
/-- `InputStream::skipSpace` (minixml.hpp:259-265). -/
def skipSpace : Str → Str
  | [] => []
  | c :: s => if !isSpace c then c :: s else skipSpace s
/-- `InputStream::getWord` (minixml.hpp:266-277): the word and what remains. -/
def getWord (f : UInt8 → Bool) : Str → Str × Str
  | [] => ([], [])
  | c :: s => if !f c then ([], c :: s) else (c :: (getWord f s).1, (getWord f s).2)

/-- `InputStream::parseAttribute` (minixml.hpp:281-297). -/
def parseAttribute (s : Str) : Res (Str × Str × Str) :=
  let (key, s) := getWord isName s
  if key = [] then .throw
  else do
    let s := skipSpace s
    let (c, s) ← next s
    if isEqual c then do
      let s := skipSpace s
      let (q, s) ← next s
      if isQuote q then do
        let (val, s) := getWord (fun c => c ≠ q) s
        let (c, s) ← next s
        if c = q then return (key, val, s) else .throw
      else .throw
    else .throw

/-- `LAST:` in `parseAttributes` (minixml.hpp:323-327). -/
def lastChar (attr : Attrs) (s : Str) : Res (Bool × Attrs × Str) := do
  let s ← inc s
  let (c, s) ← next s
  if c ≠ 62 then .throw else return (true, attr, s)

/-- `InputStream::parseAttributes` (minixml.hpp:304-328). -/
def parseAttributes (normal : Bool) : (fuel : Nat) → Attrs → Str → Res (Bool × Attrs × Str)
  | 0, _, _ => .ub
  | fuel + 1, attr, s =>
    let s := skipSpace s
    if s = [] then .throw
    else do
      let c ← query s
      if normal && c = 62 then do
        let s ← inc s
        return (false, attr, s)
      else if normal && c = 47 then lastChar attr s
      else if !normal && c = 63 then lastChar attr s
      else do
        let (key, val, s) ← parseAttribute s
        parseAttributes normal fuel (setAttr attr key val) s

/-- `if (c == '/') { type = EndTag; inc(); }` (minixml.hpp:352-357). -/
def endMark (c : UInt8) (s : Str) : Res (Bool × Str) :=
  if c = 47 then do
    let s ← inc s
    return (true, s)
  else return (false, s)

/-- `InputStream::parseTag` (minixml.hpp:346-367). -/
def parseTag (fuel : Nat) (s : Str) : Res (TagType × Str × Attrs × Str) := do
  let s := skipSpace s
  let (c, s) ← next s
  if c ≠ 60 then .throw
  else if s = [] then .throw
  else do
    let c ← query s
    let (isEnd, s) ← endMark c s
    let (name, s) := getWord isName2 s
    if name = [] then .throw
    else if isEnd then do
      let (c, s) ← next s
      if c ≠ 62 then .throw else return (.end, name, [], s)
    else do
      let (ret, attr, s) ← parseAttributes true fuel [] s
      return (if ret then .complete else .begin, name, attr, s)

/-- The optional content before a tag (minixml.hpp:377-380): the content and what remains. -/
def parseContent (content s : Str) : Res (Str × Str) := do
  let c ← query s
  if c ≠ 60 then do
    let (w, s) := getWord (fun c => c ≠ 60) s
    if s = [] then .throw else return (w, s)
  else return (content, s)

/-- `InputStream::parseNode` (minixml.hpp:372-395) on a node named `name`: content and children found so far, and at the end
what remains. -/
def parseNode : (fuel : Nat) → (name content : Str) → (child : List Node) → Str → Res (Str × List Node × Str)
  | 0, _, _, _, _ => .ub
  | fuel + 1, name, content, child, s =>
    let s := skipSpace s
    if s = [] then .throw
    else do
      let (content, s) ← parseContent content s
      let (type, name2, attr, s) ← parseTag (fuel + 1) s
      match type with
      | .end => if name ≠ name2 then .throw else return (content, child, s)
      | .begin => do
        let (content2, child2, s) ← parseNode fuel name2 [] [] s
        parseNode fuel name content (child ++ [.mk name2 attr content2 child2]) s
      | .complete => parseNode fuel name content (child ++ [.mk name2 attr [] []]) s

/-- `MiniXml::readHeader` (minixml.hpp:404-411) of a new object: the attributes of the header. -/
def readHeader (fuel : Nat) (s : Str) : Res (Attrs × Str) := do
  let s := skipSpace s
  let (w, s) := getWord isName s
  if w ≠ [60, 63, 120, 109, 108] then .throw
  else do
    let (_, attr, s) ← parseAttributes false fuel [] s
    return (attr, s)

/-- `MiniXml::parse` (minixml.hpp:424-438) of a new object: header attributes and root. -/
def parse (fuel : Nat) (s : Str) : Res (Attrs × Node) := do
  let (hdr, s) ← readHeader fuel s
  let (type, name, attr, s) ← parseTag fuel s
  match type with
  | .end => .throw
  | .begin => do
    let (content, child, _) ← parseNode fuel name [] [] s
    return (hdr, .mk name attr content child)
  | .complete => return (hdr, .mk name attr [] [])

/-- `<?xml version="1.0" encoding="UTF-8" standalone="yes"?>` -/
def header : Str := [60, 63, 120, 109, 108, 32, 118, 101, 114, 115, 105, 111, 110, 61, 34, 49, 46, 48, 34, 32, 101, 110, 99, 111, 100, 105, 110, 103, 61, 34, 85, 84, 70, 45, 56, 34, 32, 115, 116, 97, 110, 100, 97, 108, 111, 110, 101, 61, 34, 121, 101, 115, 34, 63, 62]

/-- `operator<<(os, MiniXml)` (minixml.hpp:444-449). -/
def printXml (root : Node) : Str := header ++ printNode root

end Verif.MiniXml
