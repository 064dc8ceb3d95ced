import Verif.Graph.Model
/-! # Specification of the traversals -/
namespace Pulumi.Graph

/-- `b` is reachable from `a` through list elements and dict values. -/
inductive Reaches (h : Heap) : Addr → Addr → Prop
  | refl {a} : Reaches h a a
  | dict {a es k b c} : h a = .dict es → (k, b) ∈ es → Reaches h b c → Reaches h a c
  | list {a xs b c} : h a = .list xs → b ∈ xs → Reaches h b c → Reaches h a c

/-- An unknown is reachable. -/
def HoldsUnknown (h : Heap) (a : Addr) : Prop := ∃ b, Reaches h a b ∧ h b = .unknown

/-- A finite object graph: finitely many objects are reachable from `a`. -/
def Finite (h : Heap) (a : Addr) : Prop := ∃ nodes : List Addr, ∀ b, Reaches h a b → b ∈ nodes

/-! ## massage -/

/-- The objects `massage` may look at directly below an object. -/
def MObj.below : MObj → List Addr
  | .dict es => es.map (·.2)
  | .resource d => [d]
  | .object d => [d]
  | .iterable xs => xs
  | _ => []

inductive MReaches (h : MHeap) : Addr → Addr → Prop
  | refl {a} : MReaches h a a
  | step {a b c} : b ∈ (h a).below → MReaches h b c → MReaches h a c

def MFinite (h : MHeap) (a : Addr) : Prop := ∃ nodes : List Addr, ∀ b, MReaches h a b → b ∈ nodes

/-- No dict anywhere inside the result has a key that starts with an underscore. -/
inductive NoPrivateKeys : Out → Prop
  | prim {v} : NoPrivateKeys (.prim v)
  | none : NoPrivateKeys .none
  | true : NoPrivateKeys .true
  | applied {a} : NoPrivateKeys (.applied a)
  | urnOf {a} : NoPrivateKeys (.urnOf a)
  | dict {es} : (∀ k o, (k, o) ∈ es → k.toList.head? ≠ some '_') → (∀ k o, (k, o) ∈ es → NoPrivateKeys o) → NoPrivateKeys (.dict es)
  | list {xs} : (∀ o ∈ xs, NoPrivateKeys o) → NoPrivateKeys (.list xs)

mutual
/-- What exporting an object should give, if all of it is converted: dicts without their private entries, objects
and resources as the dict of their attributes, iterables as lists, Outputs and awaitables lifted. The last index lists
the non-primitive objects met, in order. -/
inductive Exports (dry : Bool) (h : MHeap) : Addr → Out → List Addr → Prop
  | prim {a v} : h a = .prim v → Exports dry h a (.prim v) []
  | output {a} : h a = .output → Exports dry h a (.applied a) [a]
  | awaitable {a} : h a = .awaitable → Exports dry h a (.applied a) [a]
  | dict {a es rs ns} : h a = .dict es → ExportsDict dry h es rs ns → Exports dry h a (.dict rs) (a :: ns)
  | object {a d r ns} : h a = .object d → Exports dry h d r ns → Exports dry h a r (a :: ns)
  | resource {a d rs ns} : h a = .resource d → Exports dry h d (.dict rs) ns →
      Exports dry h a (.dict (if dry then rs ++ [("@isPulumiResource", .true)] else rs)) (a :: ns)
  | iterable {a xs rs ns} : h a = .iterable xs → ExportsList dry h xs rs ns → Exports dry h a (.list rs) (a :: ns)
inductive ExportsDict (dry : Bool) (h : MHeap) : List (Key × Addr) → List (String × Out) → List Addr → Prop
  | nil : ExportsDict dry h [] [] []
  | priv {k a es rs ns} : k.toList.head? = some '_' → ExportsDict dry h es rs ns →
      ExportsDict dry h ((.str k, a) :: es) rs ns
  | pub {k a r es rs ns ns'} : k.toList.head? ≠ some '_' → Exports dry h a r ns → ExportsDict dry h es rs ns' →
      ExportsDict dry h ((.str k, a) :: es) ((k, r) :: rs) (ns ++ ns')
inductive ExportsList (dry : Bool) (h : MHeap) : List Addr → List Out → List Addr → Prop
  | nil : ExportsList dry h [] [] []
  | cons {a r as rs ns ns'} : Exports dry h a r ns → ExportsList dry h as rs ns' →
      ExportsList dry h (a :: as) (r :: rs) (ns ++ ns')
end

end Pulumi.Graph
