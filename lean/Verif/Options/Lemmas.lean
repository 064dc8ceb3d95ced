import Verif.Options.Spec
/-! # Lemmas for C32 -/
namespace Pulumi.Options

theorem bindH {α β : Type} (m : H α) (f : α → H β) (h : Heap) :
    (m >>= f) h = (match m h with | (.ok a, h') => f a h' | (.error e, h') => (.error e, h')) := rfl

theorem pureH {α : Type} (a : α) (h : Heap) : (pure a : H α) h = (.ok a, h) := rfl

/-! ## What is below `n` is not changed -/

/-- The code leaves what is below address `n` as it is. -/
def Keeps {α : Type} (n : Nat) (m : H α) : Prop :=
  ∀ h : Heap, n ≤ h.length → n ≤ (m h).2.length ∧ ∀ a < n, (m h).2[a]? = h[a]?

theorem Keeps.pure {α : Type} {n : Nat} (a : α) : Keeps n (pure a : H α) := fun h hn => ⟨hn, fun _ _ => rfl⟩
theorem Keeps.raise {α : Type} {n : Nat} (e : Err) : Keeps n (raise e : H α) := fun h hn => ⟨hn, fun _ _ => rfl⟩
theorem Keeps.load {n : Nat} (a : Nat) : Keeps n (load a) := fun h hn => ⟨hn, fun _ _ => rfl⟩

theorem Keeps.loadOpts {n : Nat} (a : Nat) : Keeps n (loadOpts a) := by
  intro h hn
  unfold Options.loadOpts
  split <;> exact ⟨hn, fun _ _ => rfl⟩

theorem Keeps.alloc {n : Nat} (c : Cell) : Keeps n (alloc c) := by
  intro h hn
  refine ⟨?_, ?_⟩
  · simp [Options.alloc]; omega
  · intro a ha
    simp only [Options.alloc]
    rw [List.getElem?_append_left (by omega)]

theorem Keeps.newOptions {n : Nat} : Keeps n newOptions := by
  intro h hn
  refine ⟨?_, ?_⟩
  · simp [Options.newOptions]; omega
  · intro a ha
    simp only [Options.newOptions]
    rw [List.getElem?_append_left (by omega)]

theorem Keeps.assign {n a : Nat} {f : Opts → Opts} (ha : n ≤ a) : Keeps n (assign a f) := by
  intro h hn
  unfold Options.assign
  split
  · refine ⟨by simpa using hn, ?_⟩
    intro b hb
    simp only
    rw [List.getElem?_set_ne (by omega)]
  · exact ⟨hn, fun _ _ => rfl⟩

theorem Keeps.bind {α β : Type} {n : Nat} {m : H α} {f : α → H β} (hm : Keeps n m) (hf : ∀ a, Keeps n (f a)) :
    Keeps n (m >>= f) := by
  intro h hn
  have h1 := hm h hn
  rw [bindH]
  cases hr : m h with
  | mk r h' =>
    rw [hr] at h1
    cases r with
    | error e => exact h1
    | ok a =>
      have h2 := hf a h' h1.1
      exact ⟨h2.1, fun b hb => (h2.2 b hb).trans (h1.2 b hb)⟩

/-- Allocation gives an address that was not used. -/
theorem Keeps.bindAlloc {β : Type} {n : Nat} {m : H Nat} {f : Nat → H β} (hm : Keeps n m)
    (ha : ∀ h a, n ≤ h.length → (m h).1 = .ok a → n ≤ a) (hf : ∀ a, n ≤ a → Keeps n (f a)) : Keeps n (m >>= f) := by
  intro h hn
  have h1 := hm h hn
  rw [bindH]
  cases hr : m h with
  | mk r h' =>
    rw [hr] at h1
    cases r with
    | error e => exact h1
    | ok a =>
      have h2 := hf a (ha h a hn (by rw [hr])) h' h1.1
      exact ⟨h2.1, fun b hb => (h2.2 b hb).trans (h1.2 b hb)⟩

theorem keeps_asOptions {n : Nat} (v : Val) : Keeps n (asOptions v) := by
  cases v with
  | none => exact Keeps.newOptions
  | ref a =>
    intro h hn
    simp only [asOptions]
    split <;> exact ⟨hn, fun _ _ => rfl⟩
  | _ => exact Keeps.raise _

theorem keeps_packageOf {n : Nat} (pkg) (v : Val) : Keeps n (packageOf pkg v) := by
  cases v with
  | obj m =>
    simp only [packageOf]
    split
    · exact Keeps.pure _
    · exact Keeps.raise _
  | _ => exact Keeps.raise _

theorem keeps_checkKeys {n : Nat} (pkg) (kvs) : Keeps n (checkKeys pkg kvs) := by
  induction kvs with
  | nil => exact Keeps.pure _
  | cons p kvs ih => exact (keeps_packageOf pkg p.2).bind fun _ => ih

theorem keeps_expand {n : Nat} (pkg) (v : Val) : Keeps n (expandProviders pkg v) := by
  unfold expandProviders
  split
  · refine (Keeps.load _).bind fun c => ?_
    split
    · exact (keeps_checkKeys pkg _).bind fun _ => (Keeps.alloc _).bind fun _ => Keeps.pure _
    · exact Keeps.pure _
  · exact Keeps.pure _

theorem keeps_addLists {n : Nat} (d s : Val) : Keeps n (addLists d s) := by
  unfold addLists
  split
  · refine (Keeps.load _).bind fun c => (Keeps.load _).bind fun c' => ?_
    split
    · exact (Keeps.alloc _).bind fun _ => Keeps.pure _
    · exact (Keeps.alloc _).bind fun _ => Keeps.pure _
    · exact Keeps.raise _
  · exact Keeps.raise _

theorem keeps_mergeLists {n : Nat} (d s : Val) : Keeps n (mergeLists d s) := by
  unfold mergeLists
  split
  · exact Keeps.pure _
  · split
    · exact Keeps.pure _
    · exact keeps_addLists d s

theorem keeps_toList {n : Nat} (v : Val) : Keeps n (toList v) := by
  unfold toList
  split
  · refine (Keeps.load _).bind fun c => ?_
    split <;> exact (Keeps.alloc _).bind fun _ => Keeps.pure _
  · exact (Keeps.alloc _).bind fun _ => Keeps.pure _

theorem keeps_dependsOnList {n : Nat} (o : Opts) : Keeps n (dependsOnList o) := by
  unfold dependsOnList
  split
  · exact (Keeps.alloc _).bind fun _ => Keeps.pure _
  · unfold mapInput
    split
    · exact (keeps_toList _).bind fun _ => Keeps.pure _
    · exact keeps_toList _

theorem keeps_map2 {n : Nat} (v w : Val) : Keeps n (map2Input addLists v w) := by
  unfold map2Input
  split
  · exact (keeps_addLists _ _).bind fun _ => Keeps.pure _
  · exact (keeps_addLists _ _).bind fun _ => Keeps.pure _
  · exact (keeps_addLists _ _).bind fun _ => Keeps.pure _
  · exact keeps_addLists _ _

theorem keeps_byPackage {n : Nat} (pkg) (xs : List Val) : ∀ acc, Keeps n (byPackage pkg acc xs) := by
  induction xs with
  | nil => exact fun _ => Keeps.pure _
  | cons p xs ih => exact fun acc => (keeps_packageOf pkg p).bind fun _ => ih _

theorem keeps_collapse {n a : Nat} (pkg) (ha : n ≤ a) : Keeps n (collapseProviders pkg a) := by
  unfold collapseProviders
  refine (Keeps.loadOpts _).bind fun o => ?_
  split
  · refine (Keeps.load _).bind fun c => ?_
    split
    · split
      · exact Keeps.assign ha
      · exact (keeps_byPackage pkg _ _).bind fun _ => (Keeps.alloc _).bind fun _ => Keeps.assign ha
    · split
      · exact Keeps.assign ha
      · exact (Keeps.alloc _).bind fun _ => Keeps.assign ha
    · exact Keeps.raise _
  · exact Keeps.pure _
  · exact Keeps.raise _

theorem keeps_collections {n a b : Nat} (pkg) (ha : n ≤ a) : Keeps n (mergeCollections pkg a b) := by
  unfold mergeCollections
  refine (Keeps.loadOpts _).bind fun d => (Keeps.loadOpts _).bind fun s => (keeps_expand pkg _).bind fun _ =>
    (keeps_expand pkg _).bind fun _ => (keeps_mergeLists _ _).bind fun _ => (Keeps.assign ha).bind fun _ =>
    (keeps_dependsOnList _).bind fun _ => (keeps_dependsOnList _).bind fun _ => (keeps_map2 _ _).bind fun _ =>
    (Keeps.assign ha).bind fun _ => (keeps_mergeLists _ _).bind fun _ => (Keeps.assign ha).bind fun _ =>
    (keeps_mergeLists _ _).bind fun _ => (Keeps.assign ha).bind fun _ => (keeps_mergeLists _ _).bind fun _ =>
    (Keeps.assign ha).bind fun _ => (keeps_mergeLists _ _).bind fun _ => (Keeps.assign ha).bind fun _ =>
    (keeps_mergeLists _ _).bind fun _ => (Keeps.assign ha)

theorem copy_fresh {n a : Nat} (h : Heap) (r : Nat) (hn : n ≤ h.length) (hr : (copyOptions a h).1 = .ok r) : n ≤ r := by
  rw [copyOptions, bindH] at hr
  unfold loadOpts at hr
  split at hr
  · rename_i he
    split at he
    · cases he
      simp only [alloc, Except.ok.injEq] at hr
      omega
    · cases he
  · cases hr

theorem keeps_copy {n : Nat} (a : Nat) : Keeps n (copyOptions a) := (Keeps.loadOpts _).bind fun _ => Keeps.alloc _

theorem keeps_merge {n : Nat} (pkg) (v w : Val) : Keeps n (merge pkg v w) := by
  unfold merge
  refine (keeps_asOptions _).bind fun a => (keeps_asOptions _).bind fun b => ?_
  refine Keeps.bindAlloc (keeps_copy a) (fun h r hn hr => copy_fresh h r hn hr) fun dest hd => ?_
  exact (keeps_copy b).bind fun source => (keeps_collections pkg hd).bind fun _ =>
    ((Keeps.loadOpts _).bind fun _ => Keeps.assign hd : Keeps n (mergeScalars dest source)).bind fun _ =>
    (keeps_collapse pkg hd).bind fun _ => Keeps.pure _

end Pulumi.Options
