import Verif.Output.Joins
/-! # Following a coroutine -/
namespace Pulumi.Output
open Pulumi.Async

variable {d : Config}

/-- The task `t`, started with `p`, gets to `q`. -/
def Follows (d : Config) (t : TaskId) (p q : Prog) : Prop :=
  Has d t p ∧ ∃ o, eval d.futs t p Outcome.init = eval d.futs t q o

theorem Follows.start {t p} (h : Has d t p) : Follows d t p p := ⟨h, _, rfl⟩

theorem Follows.awaits {t p f k v} (h : Follows d t p (await' f k)) (hf : d.futs f = some (.ok v)) : Follows d t p (k v) := by
  obtain ⟨h1, o, h2⟩ := h
  refine ⟨h1, o, ?_⟩
  rw [h2, eval_await', hf]

theorem Follows.awaits_exn {t p f k e} (hs : Settled d) (h : Follows d t p (await' f k)) (hf : d.futs f = some (.exn e)) :
    d.futs (.result t) = some (.exn e) := by
  obtain ⟨h1, o, h2⟩ := h
  rw [hs.res h1, h2, eval_await', hf]

theorem Follows.spawns {t p q k} (hs : Settled d) (h : Follows d t p (.spawn q k)) : ∃ c, Has d c q ∧ Follows d t p (k c) := by
  obtain ⟨h1, o, h2⟩ := h
  refine ⟨.child t o.children, ?_, h1, _, h2.trans (by simp only [eval]; rfl)⟩
  apply hs.child h1
  rw [h2]
  simp only [eval]
  exact eval_spawned_mem (by simp)

theorem Follows.runs {α : Type} {t p} {s : Sync α} {k} (hs : Settled d) (h : Follows d t p (s.run k)) :
    ∃ n r n', Ran d t n s r n' ∧ Follows d t p (k r) := by
  obtain ⟨h1, o, h2⟩ := h
  obtain ⟨r, n', xs, he, hr⟩ := eval_run (σ := d.futs) (t := t) s k o
  refine ⟨o.children, r, n', hr d ?_, h1, _, h2.trans he⟩
  intro c q hm
  apply hs.child h1
  rw [h2, he]
  exact eval_spawned_mem (by simp [hm])

theorem Follows.returns {t p v} (hs : Settled d) (h : Follows d t p (.ret v)) : d.futs (.result t) = some (.ok v) := by
  obtain ⟨h1, o, h2⟩ := h
  rw [hs.res h1, h2]; rfl

theorem Follows.raises {t p e} (hs : Settled d) (h : Follows d t p (.raise e)) : d.futs (.result t) = some (.exn e) := by
  obtain ⟨h1, o, h2⟩ := h
  rw [hs.res h1, h2]; rfl

/-- Values without outputs and awaitables in them, of nesting depth at most `n`. -/
inductive Data : Nat → Val → Prop
  | prompt {n v} : Prompt v → Data (n + 1) v
  | list {n xs} : (∀ x ∈ xs, Data n x) → Data (n + 1) (.list xs)
  | dict {n kvs} : (∀ k x, (k, x) ∈ kvs → Data n x) → Data (n + 1) (.dict kvs)

theorem Data.succ {n v} (h : Data n v) : Data (n + 1) v := by
  induction h with
  | prompt h => exact .prompt h
  | list _ ih => exact .list ih
  | dict _ ih => exact .dict ih

theorem containsUnknownsList_any (xs : List Val) : containsUnknownsList xs = xs.any containsUnknowns := by
  induction xs with
  | nil => rfl
  | cons x xs ih => simp [containsUnknownsList, ih]

theorem containsUnknownsDict_any (kvs : List (String × Val)) : containsUnknownsDict kvs = kvs.any fun kv => containsUnknowns kv.2 := by
  induction kvs with
  | nil => rfl
  | cons kv kvs ih => obtain ⟨k, x⟩ := kv; simp [containsUnknownsDict, ih]

theorem zip_map_self {α β : Type} (f : α → β) (xs : List α) {x : α} {y : β} (h : (x, y) ∈ xs.zip (xs.map f)) : x ∈ xs ∧ y = f x := by
  induction xs with
  | nil => cases h
  | cons a xs ih =>
    simp only [List.map_cons, List.zip_cons_cons, List.mem_cons, Prod.mk.injEq] at h
    rcases h with ⟨rfl, rfl⟩ | h
    · exact ⟨List.mem_cons_self .., rfl⟩
    · exact ⟨List.mem_cons_of_mem _ (ih h).1, (ih h).2⟩

/-- Data is unwrapped to itself. -/
theorem Data.unwraps {dry σ n v} (h : Data n v) : Unwraps dry σ n v (.ofPlain v) := by
  induction h with
  | prompt hp => exact .prompt hp
  | list _ ih =>
    rename_i n xs h
    cases xs with
    | nil => exact .prompt trivial
    | cons x xs =>
      have := Unwraps.list (dry := dry) (σ := σ) (n := n) (x := x) (xs := xs) (ws := (x :: xs).map View.ofPlain) (by simp) (by
        intro v w hm
        obtain ⟨h1, rfl⟩ := zip_map_self _ _ hm
        exact ih v h1)
      refine Eq.mp (congrArg _ (Eq.symm ?_)) this
      have hm : ((x :: xs).map View.ofPlain).map (·.value) = x :: xs := by
        rw [List.map_map]; exact List.map_id _
      refine View.ext ?_ ?_ ?_ ?_
      · exact congrArg Val.list hm.symm
      · show (!containsUnknowns _) = _
        simp only [View.aggregate, hm, containsUnknowns, containsUnknownsList_any]
        rw [List.all_map]
        have : (x :: xs).all ((fun w : View => w.known) ∘ View.ofPlain) = !(x :: xs).any containsUnknowns :=
          List.not_any_eq_all_not.symm
        rw [Bool.and_comm]
        exact (Bool.and_self _).symm.trans (congrArg _ this.symm)
      · simp [View.aggregate, View.ofPlain]
      · intro r
        simp only [View.aggregate, View.ofPlain, noDeps, List.mem_map, false_iff]
        rintro ⟨w, ⟨y, _, rfl⟩, h⟩
        exact h
  | dict _ ih =>
    rename_i n kvs h
    cases kvs with
    | nil => exact .prompt trivial
    | cons kv kvs =>
      have := Unwraps.dict (dry := dry) (σ := σ) (n := n) (kv := kv) (kvs := kvs) (ws := (kv :: kvs).map fun kv => View.ofPlain kv.2)
        (by simp) (by
        intro k v w hm
        obtain ⟨h1, rfl⟩ := zip_map_self _ _ hm
        exact ih k v h1)
      refine Eq.mp (congrArg _ (Eq.symm ?_)) this
      have hm : mkDict ((kv :: kvs).map (·.1)) (((kv :: kvs).map fun kv => View.ofPlain kv.2).map (·.value)) = .dict (kv :: kvs) := by
        rw [List.map_map]
        show Val.dict (((kv :: kvs).map (·.1)).zip ((kv :: kvs).map (·.2))) = _
        congr 1
        generalize kv :: kvs = l
        induction l with
        | nil => rfl
        | cons a l ih => simp [ih]
      refine View.ext ?_ ?_ ?_ ?_
      · exact hm.symm
      · show (!containsUnknowns _) = _
        simp only [View.aggregate, hm, containsUnknowns, containsUnknownsDict_any]
        rw [List.all_map]
        have : (kv :: kvs).all ((fun w : View => w.known) ∘ fun kv => View.ofPlain kv.2) = !(kv :: kvs).any (fun kv => containsUnknowns kv.2) :=
          List.not_any_eq_all_not.symm
        rw [Bool.and_comm]
        exact (Bool.and_self _).symm.trans (congrArg _ this.symm)
      · simp [View.aggregate, View.ofPlain]
      · intro r
        simp only [View.aggregate, View.ofPlain, noDeps, List.mem_map, false_iff]
        rintro ⟨w, ⟨y, _, rfl⟩, h⟩
        exact h

end Pulumi.Output
