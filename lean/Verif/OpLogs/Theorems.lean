import Verif.OpLogs.Model
/-!
# What is in the logs that are put together (C228)
-/
namespace Pulumi.OpLogs

/-! ## Specification -/

/-- In order of time -/
def InOrder (l : List Entry) : Prop := l.Pairwise (fun a b => a.ts ≤ b.ts)

/-- No message twice at one time -/
def NoDuplicates (l : List Entry) : Prop := l.Pairwise (fun a b => ¬ (a.ts = b.ts ∧ a.msg = b.msg))

/-- Something that a child answered -/
def Answered (answers : List Answer) (e : Entry) : Prop := ∃ a ∈ answers, ∃ l, a.logs = some l ∧ e ∈ l

/-! ## Sorting -/

theorem mem_insert {e x : Entry} {l : List Entry} : x ∈ insert e l ↔ x = e ∨ x ∈ l := by
  induction l with
  | nil => simp [insert]
  | cons y ys ih =>
    simp only [insert]
    split
    · simp
    · simp only [List.mem_cons, ih]
      constructor
      · rintro (h | h | h)
        · exact .inr (.inl h)
        · exact .inl h
        · exact .inr (.inr h)
      · rintro (h | h | h)
        · exact .inr (.inl h)
        · exact .inl h
        · exact .inr (.inr h)

theorem mem_sort {x : Entry} {l : List Entry} : x ∈ sort l ↔ x ∈ l := by
  induction l with
  | nil => simp [sort]
  | cons y ys ih => simp [sort, mem_insert, ih]

theorem insert_inOrder {e : Entry} {l : List Entry} (h : InOrder l) : InOrder (insert e l) := by
  induction l with
  | nil => simp [insert, InOrder]
  | cons y ys ih =>
    simp only [InOrder, List.pairwise_cons] at h
    simp only [insert]
    split
    · rename_i hle
      simp only [InOrder, List.pairwise_cons, List.mem_cons]
      refine ⟨?_, h⟩
      rintro x (rfl | hx)
      · exact hle
      · exact Int.le_trans hle (h.1 x hx)
    · rename_i hlt
      simp only [InOrder, List.pairwise_cons]
      refine ⟨?_, ih h.2⟩
      intro x hx
      rcases mem_insert.1 hx with rfl | hx
      · omega
      · exact h.1 x hx

theorem sort_inOrder (l : List Entry) : InOrder (sort l) := by
  induction l with
  | nil => simp [sort, InOrder]
  | cons e es ih => exact insert_inOrder ih

theorem insert_at (t : Int) (e : Entry) (l : List Entry) (h : InOrder l) :
    (insert e l).filter (fun x => x.ts = t) = (e :: l).filter (fun x => x.ts = t) := by
  induction l with
  | nil => rfl
  | cons y ys ih =>
    simp only [insert]
    split
    · rfl
    · rename_i hlt
      simp only [InOrder, List.pairwise_cons] at h
      rw [List.filter_cons, ih h.2]
      simp only [List.filter_cons]
      by_cases hy : y.ts = t <;> by_cases he : e.ts = t <;> simp [hy, he]
      omega

/-- What has one time keeps its order -/
theorem sort_at (t : Int) (l : List Entry) : (sort l).filter (fun x => x.ts = t) = l.filter (fun x => x.ts = t) := by
  induction l with
  | nil => rfl
  | cons e es ih =>
    rw [sort, insert_at t e _ (sort_inOrder es), List.filter_cons, ih, List.filter_cons]

/-! ## Removing duplicates -/

theorem dedup_sublist (t : Int) (last : List String) (l : List Entry) : (dedup t last l).Sublist l := by
  induction l generalizing t last with
  | nil => exact .slnil
  | cons e es ih =>
    simp only [dedup]
    split
    · exact (ih t last).cons e
    · exact (ih _ _).cons_cons e

theorem dedup_covers (t : Int) (last : List String) (l : List Entry) (e : Entry) (he : e ∈ l) :
    (∃ o ∈ dedup t last l, o.ts = e.ts ∧ o.msg = e.msg) ∨ (e.ts = t ∧ e.msg ∈ last) := by
  induction l generalizing t last with
  | nil => cases he
  | cons x xs ih =>
    simp only [dedup]
    split
    · rename_i hx
      rcases List.mem_cons.1 he with rfl | he
      · exact .inr hx
      · exact ih t last he
    · rcases List.mem_cons.1 he with rfl | he
      · exact .inl ⟨e, by simp, rfl, rfl⟩
      · rcases ih x.ts ((if x.ts = t then last else []) ++ [x.msg]) he with ⟨o, ho, h⟩ | ⟨h1, h2⟩
        · exact .inl ⟨o, by simp [ho], h⟩
        · rcases List.mem_append.1 h2 with h2 | h2
          · split at h2
            · rename_i hx; exact .inr ⟨h1.trans hx, h2⟩
            · cases h2
          · exact .inl ⟨x, by simp, h1.symm, (List.mem_singleton.1 h2).symm⟩

theorem dedup_fresh (t : Int) (last : List String) (l : List Entry) (h : InOrder l) (hge : last = [] ∨ ∀ e ∈ l, t ≤ e.ts) :
    (∀ o ∈ dedup t last l, ¬ (o.ts = t ∧ o.msg ∈ last)) ∧ NoDuplicates (dedup t last l) := by
  induction l generalizing t last with
  | nil => simp [dedup, NoDuplicates]
  | cons x xs ih =>
    simp only [InOrder, List.pairwise_cons] at h
    simp only [dedup]
    split
    · exact ih t last h.2 (hge.imp id (fun hg e he => hg e (by simp [he])))
    · rename_i hx
      obtain ⟨i1, i2⟩ := ih x.ts ((if x.ts = t then last else []) ++ [x.msg]) h.2 (.inr h.1)
      constructor
      · intro o ho
        rcases List.mem_cons.1 ho with rfl | ho
        · exact hx
        · rintro ⟨h1, h2⟩
          rcases hge with rfl | hg
          · cases h2
          · have a := h.1 o ((dedup_sublist _ _ _).subset ho)
            have b := hg x (by simp)
            have hxt : x.ts = t := by omega
            exact i1 o ho ⟨by omega, by simp [hxt, h2]⟩
      · simp only [NoDuplicates, List.pairwise_cons]
        refine ⟨?_, i2⟩
        rintro o ho ⟨h1, h2⟩
        exact i1 o ho ⟨h1.symm, by simp [h2]⟩

/-! ## The logs -/

theorem mem_logs {answers : List Answer} {e : Entry} : e ∈ answers.flatMap (fun a => a.logs.getD []) ↔ Answered answers e := by
  simp only [List.mem_flatMap, Answered]
  constructor
  · rintro ⟨a, ha, h⟩
    cases hl : a.logs with
    | none => simp [hl] at h
    | some l => exact ⟨a, ha, l, hl, by simpa [hl] using h⟩
  · rintro ⟨a, ha, l, hl, h⟩
    exact ⟨a, ha, by simpa [hl] using h⟩

theorem gather_ok {answers : List Answer} (h : ∀ a ∈ answers, a.err = none) :
    gather answers = (dedup 0 [] (sort (answers.flatMap (fun a => a.logs.getD []))), []) := by
  have : answers.filterMap (·.err) = [] := by rw [List.filterMap_eq_nil_iff]; exact h
  simp [gather, this]

/-- **C228.** Where no child fails, the logs put together are in order of time, with no message twice at one time, and are the children's: everything
in them was answered by a child, and for everything a child answered its message is there at its time. -/
theorem logs_put_together {answers : List Answer} (h : ∀ a ∈ answers, a.err = none) :
    (gather answers).2 = [] ∧ InOrder (gather answers).1 ∧ NoDuplicates (gather answers).1 ∧
    (∀ e ∈ (gather answers).1, Answered answers e) ∧
    (∀ e, Answered answers e → ∃ o ∈ (gather answers).1, o.ts = e.ts ∧ o.msg = e.msg) := by
  rw [gather_ok h]
  refine ⟨rfl, ?_, ?_, ?_, ?_⟩
  · exact (sort_inOrder _).sublist (dedup_sublist _ _ _)
  · exact (dedup_fresh 0 [] _ (sort_inOrder _) (.inl rfl)).2
  · intro e he
    exact mem_logs.1 (mem_sort.1 ((dedup_sublist _ _ _).subset he))
  · intro e he
    rcases dedup_covers 0 [] _ e (mem_sort.2 (mem_logs.2 he)) with h | ⟨_, h⟩
    · exact h
    · cases h

/-- **C228.** Which messages are there at which times does not depend on the order in which the children answer. -/
theorem messages_whatever_the_order {as bs : List Answer} (hp : ∀ a, a ∈ as ↔ a ∈ bs) (h : ∀ a ∈ as, a.err = none) (t : Int) (m : String) :
    (∃ e ∈ (gather as).1, e.ts = t ∧ e.msg = m) ↔ (∃ e ∈ (gather bs).1, e.ts = t ∧ e.msg = m) := by
  have key : ∀ {xs ys : List Answer}, (∀ a, a ∈ xs ↔ a ∈ ys) → (∀ a ∈ xs, a.err = none) →
      (∃ e ∈ (gather xs).1, e.ts = t ∧ e.msg = m) → (∃ e ∈ (gather ys).1, e.ts = t ∧ e.msg = m) := by
    rintro xs ys hp h ⟨e, he, rfl, rfl⟩
    obtain ⟨-, -, -, h1, -⟩ := logs_put_together h
    obtain ⟨-, -, -, -, h2⟩ := logs_put_together (answers := ys) (fun a ha => h a ((hp a).2 ha))
    obtain ⟨a, ha, r⟩ := h1 e he
    exact h2 e ⟨a, (hp a).1 ha, r⟩
  exact ⟨key hp h, key (fun a => (hp a).symm) (fun a ha => h a ((hp a).2 ha))⟩

/-- **C228.** What was logged at one time stays in the order in which it came: what is left of it is a part of it, in that order. -/
theorem same_time_keeps_order {answers : List Answer} (h : ∀ a ∈ answers, a.err = none) (t : Int) :
    ((gather answers).1.filter (fun x => x.ts = t)).Sublist ((answers.flatMap (fun a => a.logs.getD [])).filter (fun x => x.ts = t)) := by
  rw [gather_ok h, ← sort_at t (answers.flatMap (fun a => a.logs.getD []))]
  exact (dedup_sublist _ _ _).filter _

/-- **C228.** Where a child fails, all errors are given, and all logs that were answered. -/
theorem failures_given {answers : List Answer} {a : Answer} (ha : a ∈ answers) {m : String} (hm : a.err = some m) :
    m ∈ (gather answers).2 ∧ ∀ e, e ∈ (gather answers).1 ↔ Answered answers e := by
  have hmem : m ∈ answers.filterMap (·.err) := List.mem_filterMap.2 ⟨a, ha, hm⟩
  have hne : answers.filterMap (·.err) ≠ [] := by intro h; rw [h] at hmem; cases hmem
  simp only [gather, hne, if_false]
  exact ⟨hmem, fun e => mem_logs⟩

/-- two functions that log, one message of them the same -/
def two : List Answer := [⟨some [⟨"f", 1, "start"⟩, ⟨"f", 7, "end"⟩], none⟩, ⟨none, none⟩, ⟨some [⟨"g", 1, "start"⟩, ⟨"g", 5, "work"⟩, ⟨"g", 5, "work"⟩], none⟩]

example : (∀ a ∈ two, a.err = none) ∧ gather two = ([⟨"f", 1, "start"⟩, ⟨"g", 5, "work"⟩, ⟨"f", 7, "end"⟩], []) := by decide

example : gather [⟨some [⟨"f", 2, "b"⟩, ⟨"f", 1, "a"⟩], none⟩, ⟨none, some "no such group"⟩] = ([⟨"f", 2, "b"⟩, ⟨"f", 1, "a"⟩], ["no such group"]) := by decide

/-- **C228, what is wrong.** What two resources log at one time in the same words is taken for a duplicate: of any two such entries, of whatever resources,
only that of the one that answers first is left. -/
theorem other_resources_lost (i j : String) (t : Int) (m : String) :
    gather [⟨some [⟨i, t, m⟩], none⟩, ⟨some [⟨j, t, m⟩], none⟩] = ([⟨i, t, m⟩], []) := by
  simp [gather, sort, insert, dedup]

/-- **C228, what is wrong.** So what is given depends on which child answers first, in what is there and in its order. -/
theorem depends_on_order : ∃ a b : Answer, a.err = none ∧ b.err = none ∧ (∃ e, e ∈ (gather [a, b]).1 ∧ e ∉ (gather [b, a]).1) :=
  ⟨⟨some [⟨"f", 1, "start"⟩], none⟩, ⟨some [⟨"g", 1, "start"⟩], none⟩, rfl, rfl, ⟨"f", 1, "start"⟩, by decide, by decide⟩

/-- **C228, what is wrong.** Beside an error the logs are neither sorted nor freed of duplicates. -/
theorem unsorted_beside_errors (l : List Entry) (m : String) : gather [⟨some l, some m⟩] = (l, [m]) := by
  simp [gather]

end Pulumi.OpLogs
