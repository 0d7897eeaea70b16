import Verif.Model.Mmap
/-!
# What a resource-safe use of the system is
-/
namespace Verif.MmapSpec
open Verif.Mmap

/-- Open handles and mappings (address, size). -/
structure Held where
  handles : List Nat
  maps : List (Nat × Nat)
deriving DecidableEq

/-- The system accepts a request: closing and unmapping only what is open, with the size it was
mapped with; the answers are new. -/
inductive Accepts : Held → Ev → Held → Prop where
  | open {r} (fd : Nat) (h : fd ∉ r.handles) : Accepts r (.open fd) ⟨fd :: r.handles, r.maps⟩
  | close {r} (fd : Nat) (h : fd ∈ r.handles) : Accepts r (.close fd) ⟨r.handles.erase fd, r.maps⟩
  | map {r} (a fd size : Nat) (h : fd ∈ r.handles) (n : 0 < size) :
      Accepts r (.map a fd size) ⟨r.handles, (a, size) :: r.maps⟩
  | unmap {r} (a size : Nat) (h : (a, size) ∈ r.maps) :
      Accepts r (.unmap a size) ⟨r.handles, r.maps.erase (a, size)⟩
  | mapping {r} (m fd : Nat) (h : fd ∈ r.handles) (n : m ∉ r.handles) :
      Accepts r (.mapping m fd) ⟨m :: r.handles, r.maps⟩
  | errno {r} : Accepts r .errno r

/-- A sequence of requests. -/
inductive AcceptsAll : Held → List Ev → Held → Prop where
  | nil (r : Held) : AcceptsAll r [] r
  | cons {r r1 r2 e l} (h : Accepts r e r1) (t : AcceptsAll r1 l r2) : AcceptsAll r (e :: l) r2

end Verif.MmapSpec
