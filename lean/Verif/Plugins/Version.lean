/-!
# Versions and their order

Models the order of `github.com/blang/semver`, which the code in `/repo` uses and which is not part of it, as the specification of semantic versions
(semver.org, 10 and 11) has it; and `SortedPluginInfo.Less` and `SortedPluginSpec.Less` (`sdk/go/common/workspace/plugins.go:1739-1754, 1761-1776`).
-/
namespace Pulumi.Plugins

/-- An identifier of a pre-release -/
inductive Ident
  | num (n : Nat)
  | str (s : String)
deriving DecidableEq, Repr

structure Version where
  major : Nat
  minor : Nat
  patch : Nat
  pre : List Ident
  build : List String
deriving DecidableEq, Repr

/-- Numbers are before texts. -/
def Ident.cmp : Ident → Ident → Ordering
  | .num m, .num n => compare m n
  | .num _, .str _ => .lt
  | .str _, .num _ => .gt
  | .str s, .str t => compare s t

instance : Ord Ident := ⟨Ident.cmp⟩

/-- Pre-releases are before the release; of two with a common part the longer one is later. What comes after the plus does not count. -/
def Version.cmp : Version → Version → Ordering :=
  compareLex (compareOn (·.major)) (compareLex (compareOn (·.minor)) (compareLex (compareOn (·.patch))
    (compareLex (compareOn (·.pre.isEmpty)) (compareOn (·.pre)))))

def Ident.text : Ident → String
  | .num n => toString n
  | .str s => s

/-- `Version.String` -/
def Version.text (v : Version) : String :=
  toString v.major ++ "." ++ toString v.minor ++ "." ++ toString v.patch ++
    (if v.pre = [] then "" else "-" ++ ".".intercalate (v.pre.map Ident.text)) ++
    (if v.build = [] then "" else "+" ++ ".".intercalate v.build)

/-- `Less`: no version is less than any; equal ones are told by their texts. -/
def less : Option Version → Option Version → Bool
  | none, none => false
  | none, some _ => true
  | some _, none => false
  | some v, some w => if v.cmp w = .eq then compare v.text w.text = .lt else v.cmp w = .lt

/-! ## The order is one -/

instance : Std.TransCmp Ident.cmp where
  eq_swap {a b} := by
    cases a <;> cases b
    · exact Std.OrientedCmp.eq_swap (cmp := compare (α := Nat))
    · rfl
    · rfl
    · exact Std.OrientedCmp.eq_swap (cmp := compare (α := String))
  isLE_trans {a b c} h h' := by
    cases a <;> cases b <;> cases c <;> simp only [Ident.cmp] at h h' ⊢ <;>
      first | rfl | (cases h; done) | (cases h'; done) | exact Std.TransCmp.isLE_trans h h'

instance : Std.TransOrd Ident := inferInstanceAs (Std.TransCmp Ident.cmp)

instance : Std.TransCmp Version.cmp := by unfold Version.cmp; infer_instance

/-- The order in which versions are sorted -/
def rank : Option Version → Option Version → Ordering
  | none, none => .eq
  | none, some _ => .lt
  | some _, none => .gt
  | some v, some w => (compareLex Version.cmp (compareOn Version.text)) v w

instance : Std.TransCmp rank where
  eq_swap {a b} := by
    cases a <;> cases b
    · rfl
    · rfl
    · rfl
    · exact Std.OrientedCmp.eq_swap (cmp := compareLex Version.cmp (compareOn Version.text))
  isLE_trans {a b c} h h' := by
    cases a <;> cases b <;> cases c <;> simp only [rank] at h h' ⊢ <;>
      first | rfl | (cases h; done) | (cases h'; done) | exact Std.TransCmp.isLE_trans h h'

theorem less_rank {a b : Option Version} : less a b = true ↔ rank a b = .lt := by
  cases a with
  | none => cases b <;> simp [less, rank]
  | some v =>
    cases b with
    | none => simp [less, rank]
    | some w =>
      simp only [less, rank, compareLex, compareOn]
      cases h : v.cmp w <;> simp

theorem rank_le {a b : Option Version} : (rank a b).isLE = true ↔ less b a = false := by
  rw [show rank a b = (rank b a).swap from Std.OrientedCmp.eq_swap]
  have := less_rank (a := b) (b := a)
  cases h : rank b a <;> cases hl : less b a <;> simp_all

theorem less_false_trans {a b c : Option Version} (h : less b a = false) (h' : less c b = false) : less c a = false :=
  rank_le.mp (Std.TransCmp.isLE_trans (rank_le.mpr h) (rank_le.mpr h'))

theorem less_asymm {a b : Option Version} (h : less a b = true) : less b a = false := by
  cases hb : less b a with
  | false => rfl
  | true =>
    have h1 := less_rank.mp h
    rw [show rank a b = (rank b a).swap from Std.OrientedCmp.eq_swap, less_rank.mp hb] at h1
    cases h1

theorem less_irrefl (a : Option Version) : less a a = false := by
  cases h : less a a with
  | false => rfl
  | true => rw [less_asymm h] at h; cases h

/-- Versions that are not told apart by their order have the same text. -/
theorem less_tie {a b : Option Version} (h : less a b = false) (h' : less b a = false) : a.map Version.text = b.map Version.text := by
  have h1 := rank_le.mpr h
  have h2 := rank_le.mpr h'
  have he : rank a b = .eq := by
    rw [show rank b a = (rank a b).swap from Std.OrientedCmp.eq_swap] at h1
    cases hr : rank a b <;> rw [hr] at h1 h2 <;> first | rfl | (cases h1; done) | (cases h2; done)
  cases a with
  | none => cases b with | none => rfl | some w => cases he
  | some v =>
    cases b with
    | none => cases he
    | some w =>
      simp only [rank, compareLex, compareOn] at he
      cases hc : v.cmp w <;> rw [hc] at he <;> first | (cases he; done) | skip
      simp only [Ordering.eq_then] at he
      simp only [Option.map_some]
      rw [Std.LawfulEqCmp.eq_of_compare he]

example : (⟨1, 0, 0, [.str "alpha", .num 1], []⟩ : Version).text = "1.0.0-alpha.1" := by decide +kernel
example : Version.cmp ⟨1, 0, 0, [.str "alpha"], []⟩ ⟨1, 0, 0, [], []⟩ = .lt := by decide +kernel
example : Version.cmp ⟨1, 0, 0, [.str "alpha"], []⟩ ⟨1, 0, 0, [.str "alpha", .num 1], []⟩ = .lt := by decide +kernel
example : Version.cmp ⟨1, 10, 0, [], []⟩ ⟨1, 9, 0, [], []⟩ = .gt := by decide +kernel
example : less (some ⟨1, 0, 0, [], ["a"]⟩) (some ⟨1, 0, 0, [], ["b"]⟩) = true := by decide +kernel

end Pulumi.Plugins
