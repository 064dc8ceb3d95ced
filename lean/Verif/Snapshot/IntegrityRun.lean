import Verif.Snapshot.Integrity
/-! Orderly updates keep the checkpoint intact. -/
namespace Pulumi.Snapshot

theorem aliasMap_none {rs : List State} : ∀ m, (∀ s ∈ rs, s.aliases = []) → aliasMap rs m = some m := by
  induction rs with
  | nil => intros; rfl
  | cons s rs ih =>
    intro m h
    simp only [aliasMap, h s (by simp), addAliases]
    exact ih m (fun s hs => h s (List.mem_cons_of_mem _ hs))

theorem fixAll_plain {E : Env} : ∀ {rs : List State}, (∀ s ∈ rs, s.provider = .none ∨
    ∃ r, s.provider = .ref r ∧ E.validProviderUrn r.urn = true) → fixAll E [] rs = .ok rs := by
  intro rs
  induction rs with
  | nil => intros; rfl
  | cons s rs ih =>
    intro h
    have hg : fixUrn [] = id := rfl
    have hs : fixResource E [] s = .ok s := by
      have hp : fixProvider E [] s.provider = .ok s.provider := by
        rcases h s (by simp) with h0 | ⟨r, h0, h1⟩
        · rw [h0]; rfl
        · rw [h0]; simp only [fixProvider, hg, id]; rw [if_pos h1]
      simp only [fixResource, hp, hg, id]
      have h1 : (if s.parent = "" then "" else s.parent) = s.parent := by split <;> simp_all
      rw [h1]
      simp
    simp only [fixAll, hs, ih (fun x hx => h x (List.mem_cons_of_mem _ hx))]

theorem intactFrom_backed {E : Env} {l : List State} : ∀ {b : List State}, IntactFrom E b l → ∀ s ∈ l,
    ∃ b', Backed E b' s ∧ ∀ x ∈ b', x ∈ b ∨ x ∈ l := by
  induction l with
  | nil => intro _ _ s hs; simp at hs
  | cons y l ih =>
    intro b h s hs
    rcases List.mem_cons.mp hs with rfl | hs
    · exact ⟨b, h.1, fun x hx => Or.inl hx⟩
    · have ⟨b', h1, h2⟩ := ih h.2 s hs
      refine ⟨b', h1, fun x hx => ?_⟩
      rcases h2 x hx with h3 | h3
      · rcases List.mem_append.mp h3 with h3 | h3
        · exact Or.inl h3
        · rw [List.mem_singleton.mp h3]; exact Or.inr (by simp)
      · exact Or.inr (List.mem_cons_of_mem _ h3)

theorem normalize_plain {E : Env} {s : Snap} (ha : ∀ x ∈ s.resources, x.aliases = [])
    (hi : IntactFrom E [] s.resources) : normalize E s = .ok s := by
  simp only [normalize, aliasMap_none [] ha]
  rw [fixAll_plain]
  intro x hx
  have ⟨b, hb, hm⟩ := intactFrom_backed hi x hx
  rcases hb.provider with h0 | ⟨r, h0, y, hy, h1, h2, _⟩
  · exact Or.inl h0
  · refine Or.inr ⟨r, h0, ?_⟩
    have hy' : y ∈ s.resources := by
      rcases List.mem_append.mp hy with hy | hy
      · simpa using hm y hy
      · rw [List.mem_singleton.mp hy]; exact hx
    have ⟨b', hb', _⟩ := intactFrom_backed hi y hy'
    rw [← h2]; exact hb'.referenceable h1

/-- The states the next checkpoint will list. -/
def listed (m : Manager) : List Ptr := m.resources ++ m.base.filter (fun p => p ∉ m.dones)

structure Inv2 (E : Env) (s : Sys) : Prop where
  next : IntactFrom E [] ((listed s.mgr).map s.heap)
  disk : IntactFrom E [] s.disk.resources

theorem intact_save {E : Env} {h : Heap} {m : Manager} {d : Snap} (b : Bool)
    (ha : ∀ q ∈ listed m, (h q).aliases = [])
    (hn : IntactFrom E [] ((listed m).map h)) (hd : IntactFrom E [] d.resources) :
    IntactFrom E [] (saveSnapshot E h m d b).1.resources := by
  have hs : normalize E (m.snap h) = .ok (m.snap h) := by
    refine normalize_plain ?_ hn
    intro x hx
    have ⟨q, hq, he⟩ := List.mem_map.mp hx
    rw [← he]; exact ha q hq
  rcases saveSnapshot_disk E h m d b with h1 | h1
  · rw [h1]; exact hd
  · rw [hs, Except.ok.injEq] at h1
    rw [← h1]; exact hn

theorem service_listed (E : Env) (h : Heap) (m : Manager) (w : Write) (d : Snap) (b : Bool) :
    listed (service E h m w d b).1 = listed m := by
  cases w <;> rfl

theorem intact_service {E : Env} {h : Heap} {m : Manager} {d : Snap} (w : Write) (b : Bool)
    (ha : ∀ q ∈ listed m, (h q).aliases = []) (hn : IntactFrom E [] ((listed m).map h)) (hd : IntactFrom E [] d.resources) :
    IntactFrom E [] (service E h m w d b).2.1.resources := by
  cases w
  · exact intact_save b ha hn hd
  · exact hd
  · exact hd

theorem intact_heap {E : Env} {h h' : Heap} {l : List Ptr} (hc : ∀ q ∈ l, SameCore (h' q) (h q))
    (hd : ∀ q ∈ l, (h q).delete = true → (h' q).delete = true) (hi : IntactFrom E [] (l.map h)) :
    IntactFrom E [] (l.map h') :=
  intact_core (b := []) (by simpa using hc) hd hi

/-- A step changes nothing that is checked, but of the state it makes. -/
theorem apply_core (h : Heap) (st : Step) (o : Outcome) (outs rid : String) (q : Ptr) (hq : newOf st ≠ some q) :
    SameCore ((apply h st o outs rid).1 q) (h q) ∧
      ((h q).delete = true → ((apply h st o outs rid).1 q).delete = true) := by
  have hset : ∀ (g : Heap) (p : Ptr) (x : State), p ≠ q → (g.set p x) q = g q :=
    fun g p x hp => Heap.set_other _ _ (fun he => hp he.symm)
  have hdel : ∀ (g : Heap) (p : Ptr), g q = h q → SameCore ((g.set p { g p with delete := true }) q) (h q) ∧
      ((h q).delete = true → ((g.set p { g p with delete := true }) q).delete = true) := by
    intro g p hg
    rw [← hg]
    by_cases he : q = p
    · subst he; rw [Heap.set_same]; exact ⟨⟨rfl, rfl, rfl, rfl, rfl, rfl⟩, fun _ => rfl⟩
    · rw [Heap.set_other _ _ he]; exact ⟨SameCore.refl _, id⟩
  have hsame : ∀ (g : Heap), g q = h q → SameCore (g q) (h q) ∧ ((h q).delete = true → (g q).delete = true) := by
    intro g hg; rw [hg]; exact ⟨SameCore.refl _, id⟩
  have hrefl : SameCore (h q) (h q) ∧ ((h q).delete = true → (h q).delete = true) := ⟨SameCore.refl _, id⟩
  have hnew : ∀ n, newOf st = some n → n ≠ q := fun n hn he => hq (he ▸ hn)
  cases st with
  | same old new sk => simp only [apply]; rw [hset _ _ _ (hnew new rfl)]; exact hrefl
  | create old new pd =>
    have hn := hnew new rfl
    cases o <;> cases old <;> cases pd <;> first
      | exact hrefl
      | exact hdel h _ rfl
      | exact hsame (h.set new _) (hset _ _ _ hn)
      | exact hdel (h.set new _) _ (hset _ _ _ hn)
  | update old new =>
    have hn := hnew new rfl
    simp only [apply]
    split <;> simp only [hset _ _ _ hn] <;> exact hrefl
  | read old new r =>
    have hn := hnew new rfl
    cases o <;> cases old <;> cases r <;> first
      | exact hrefl
      | exact hsame (h.set new _) (hset _ _ _ hn)
      | exact hdel (h.set new _) _ (hset _ _ _ hn)
  | «import» old new =>
    have hn := hnew new rfl
    cases o <;> cases old <;> first
      | exact hrefl
      | exact hsame (h.set new _) (hset _ _ _ hn)
      | exact hdel (h.set new _) _ (hset _ _ _ hn)
  | delete old r => cases o <;> exact hrefl
  | replace old new => cases o <;> exact hrefl
  | refresh old => cases o <;> exact hrefl
  | removePendingReplace old => cases o <;> exact hrefl

theorem filter_all {α : Type} (l : List α) : l.filter (fun _ => true) = l := by simp

/-- No two live states have one URN. -/
theorem two_live {E : Env} {h : Heap} {l : List Ptr} : ∀ {b : List State}, IntactFrom E b (l.map h) →
    ∀ q ∈ l, ∀ o ∈ l, q ≠ o → (h q).delete = false → (h o).delete = false → (h q).urn ≠ (h o).urn := by
  induction l with
  | nil => intro _ _ q hq; simp at hq
  | cons x l ih =>
    intro b hi q hq o ho hne hdq hdo
    rcases List.mem_cons.mp hq with rfl | hq'
    · rcases List.mem_cons.mp ho with rfl | ho'
      · exact absurd rfl hne
      · exact live_first hi.2 (h o) (List.mem_map.mpr ⟨o, ho', rfl⟩) hdo (h q) (by simp)
    · rcases List.mem_cons.mp ho with rfl | ho'
      · exact fun he => live_first hi.2 (h q) (List.mem_map.mpr ⟨q, hq', rfl⟩) hdq (h o) (by simp) he.symm
      · exact ih hi.2 q hq' o ho' hne hdq hdo

theorem listed_change {m m' : Manager} {N D : List Ptr} (hr : m'.resources = m.resources ++ N) (hb : m'.base = m.base)
    (hd : m'.dones = D ++ m.dones) :
    listed m' = m.resources ++ N ++ (m.base.filter (fun p => p ∉ m.dones)).filter (fun p => decide (p ∉ D)) := by
  simp only [listed, hr, hb, hd, List.filter_filter]
  congr 1
  refine List.filter_congr (fun p _ => ?_)
  by_cases h1 : p ∈ m.dones <;> by_cases h2 : p ∈ D <;> simp [h1, h2]

theorem mem_remaining {s : Sys} {q : Ptr} : q ∈ s.mgr.base.filter (fun p => p ∉ s.mgr.dones) ↔ Remaining s q := by
  simp [Remaining]

theorem placed_intact {E : Env} {s : Sys} {n : Ptr} (hp : Placed E s n) :
    IntactFrom E (s.mgr.resources.map s.heap) ([n].map s.heap) := ⟨hp, trivial⟩

theorem record_intact {E : Env} {s : Sys} {n : Ptr} {m' : Manager} (hi : IntactFrom E [] ((listed s.mgr).map s.heap))
    (hp : Placed E s n) (ho : OthersDeleted s n none)
    (hr : m'.resources = s.mgr.resources ++ [n]) (hb : m'.base = s.mgr.base) (hd : m'.dones = s.mgr.dones) :
    IntactFrom E [] ((listed m').map s.heap) := by
  rw [listed_change (N := [n]) (D := []) hr hb hd]
  refine intact_change hi (placed_intact hp) ?_ ?_ ?_
  · intro q hq _
    by_cases he : (s.heap q).urn = (s.heap n).urn
    · exact Or.inl (ho q (mem_remaining.mp hq) (by simp) he)
    · right; intro x hx; rw [List.mem_singleton.mp hx]; exact fun h => he h.symm
  · intro _ _ _ y _ hk; simp at hk
  · intro _ _ _ _ _ y _ hk; simp at hk

theorem supersede_intact {E : Env} {s : Sys} {o n : Ptr} {m' : Manager}
    (hi : IntactFrom E [] ((listed s.mgr).map s.heap)) (hp : Placed E s n) (ho : OthersDeleted s n (some o))
    (hu : (s.heap n).urn = (s.heap o).urn)
    (hpr : ∀ q, Remaining s q → q ≠ o → ∀ r, (s.heap q).provider = .ref r → Provides E (s.heap o) r →
      Provides E (s.heap n) r)
    (hr : m'.resources = s.mgr.resources ++ [n]) (hb : m'.base = s.mgr.base) (hd : m'.dones = o :: s.mgr.dones) :
    IntactFrom E [] ((listed m').map s.heap) := by
  rw [listed_change (N := [n]) (D := [o]) hr hb hd]
  refine intact_change hi (placed_intact hp) ?_ ?_ ?_
  · intro q hq hk
    by_cases he : (s.heap q).urn = (s.heap n).urn
    · refine Or.inl (ho q (mem_remaining.mp hq) ?_ he)
      simp only [List.mem_singleton, decide_eq_true_eq] at hk
      simpa using hk
    · right; intro x hx; rw [List.mem_singleton.mp hx]; exact fun h => he h.symm
  · intro q _ _ y _ hk _
    simp only [List.mem_singleton, decide_eq_false_iff_not, Decidable.not_not] at hk
    subst hk
    exact Or.inl ⟨n, by simp, hu⟩
  · intro q hq hkq r hr y _ hk hy
    simp only [List.mem_singleton, decide_eq_false_iff_not, Decidable.not_not] at hk
    simp only [List.mem_singleton, decide_eq_true_eq] at hkq
    subst hk
    exact ⟨n, by simp, hpr q (mem_remaining.mp hq) hkq r hr hy⟩

theorem drop_intact {E : Env} {s : Sys} {o : Ptr} {m' : Manager} (hi : IntactFrom E [] ((listed s.mgr).map s.heap))
    (hg : MayGo E s o) (hr : m'.resources = s.mgr.resources) (hb : m'.base = s.mgr.base)
    (hd : m'.dones = o :: s.mgr.dones) : IntactFrom E [] ((listed m').map s.heap) := by
  rw [listed_change (N := []) (D := [o]) (by rw [hr]; simp) hb hd]
  refine intact_change hi trivial ?_ ?_ ?_
  · intro q _ _; exact Or.inr (by simp)
  · intro q hq hkq y _ hk hrf
    simp only [List.mem_singleton, decide_eq_false_iff_not, Decidable.not_not] at hk
    simp only [List.mem_singleton, decide_eq_true_eq] at hkq
    subst hk
    rcases hg.unreferenced q (mem_remaining.mp hq) hkq hrf with ⟨z, hz, hzu⟩ | ⟨z, hz, hzo, hzd, hzu⟩
    · exact Or.inl ⟨z, by simp [hz], hzu⟩
    · exact Or.inr ⟨z, mem_remaining.mpr hz, by simpa using hzo, hzd, hzu⟩
  · intro q hq hkq r hr y _ hk hy
    simp only [List.mem_singleton, decide_eq_false_iff_not, Decidable.not_not] at hk
    simp only [List.mem_singleton, decide_eq_true_eq] at hkq
    subst hk
    exact absurd hy (hg.unused q (mem_remaining.mp hq) hkq r hr)

theorem succeed_intact {E : Env} {s : Sys} {o n : Ptr} {m' : Manager}
    (hi : IntactFrom E [] ((listed s.mgr).map s.heap)) (hp : Placed E s n) (hs : Succeeds s o n)
    (hob : o ∈ s.mgr.base) (hid : (s.heap n).id = (s.heap o).id)
    (hr : m'.resources = s.mgr.resources ++ [n]) (hb : m'.base = s.mgr.base) (hd : m'.dones = o :: s.mgr.dones) :
    IntactFrom E [] ((listed m').map s.heap) := by
  refine supersede_intact hi hp ?_ hs.urn ?_ hr hb hd
  · intro q hq hne hu
    cases hdq : (s.heap q).delete with
    | true => rfl
    | false =>
      refine absurd (hu.trans hs.urn) (two_live hi q ?_ o ?_ (by simpa using hne) hdq hs.liveOld)
      · exact List.mem_append_right _ (mem_remaining.mpr hq)
      · exact List.mem_append_right _ (mem_remaining.mpr ⟨hob, hs.remaining⟩)
  · intro q _ _ r _ hpv
    exact ⟨by rw [hs.type]; exact hpv.1, hs.urn.trans hpv.2.1, hid.trans hpv.2.2⟩

theorem unchanged_intact {E : Env} {h : Heap} {m m' : Manager} (hi : IntactFrom E [] ((listed m).map h))
    (hr : m'.resources = m.resources) (hb : m'.base = m.base) (hd : m'.dones = m.dones) :
    IntactFrom E [] ((listed m').map h) := by
  simp only [listed, hr, hb, hd] at hi ⊢; exact hi

theorem orderly_ends {E : Env} {s : Sys} {st : Step} {ok : Bool}
    (hi : IntactFrom E [] ((listed s.mgr).map s.heap))
    (hen : EntryOk s.heap s.mgr s.gone s.disk st (.applied ok)) (ho : EndsOrderly E s st ok) :
    IntactFrom E [] ((listed (ends s.heap s.mgr st ok).1).map s.heap) := by
  cases st with
  | same old new sk =>
    cases sk with
    | false => exact succeed_intact hi ho.1 ho.2 hen.2.1 (hen.2.2.2 ok rfl) rfl rfl rfl
    | true =>
      have hob : old ∉ s.mgr.base := hen.2
      have : listed (ends s.heap s.mgr (.same old new true) ok).1 = listed s.mgr := by
        simp only [ends, endSame, if_true, listed, Manager.markDone]
        congr 1
        refine List.filter_congr (fun p hp => ?_)
        have : p ≠ old := fun he => hob (he ▸ hp)
        simp [this]
      rw [this]; exact hi
  | create old new pd =>
    cases ok with
    | false => exact unchanged_intact hi rfl rfl rfl
    | true =>
      cases old with
      | none => exact record_intact hi ho.1 ho.2 rfl rfl rfl
      | some old =>
        simp only [EndsOrderly] at ho
        cases hpr : (s.heap old).pendingReplacement with
        | true =>
          rw [hpr] at ho
          refine supersede_intact hi ho.1 ho.2.1 ho.2.2.1 (fun q hq hne r hr hy => absurd hy (ho.2.2.2 q hq hne r hr))
            ?_ ?_ ?_ <;> simp [ends, endCreate, hpr, Manager.markDone, Manager.markNew, Manager.markComplete]
        | false =>
          rw [hpr] at ho
          refine record_intact hi ho.1 ho.2 ?_ ?_ ?_ <;>
            simp [ends, endCreate, hpr, Manager.markNew, Manager.markComplete]
  | update old new =>
    cases ok with
    | false => exact unchanged_intact hi rfl rfl rfl
    | true => exact succeed_intact hi ho.1 ho.2 hen.2.1 (hen.2.2.2.2.1 true rfl) rfl rfl rfl
  | delete old r =>
    cases ok with
    | false => exact unchanged_intact hi rfl rfl rfl
    | true =>
      cases hpr : (s.heap old).pendingReplacement with
      | true => refine unchanged_intact hi ?_ ?_ ?_ <;> simp [ends, endDelete, hpr, Manager.markComplete]
      | false =>
        rcases ho with h0 | h0
        · rw [hpr] at h0; exact absurd h0 (by simp)
        · refine drop_intact hi h0 ?_ ?_ ?_ <;> simp [ends, endDelete, hpr, Manager.markComplete, Manager.markDone]
  | replace old new => exact hi
  | read old new r =>
    cases ok with
    | false => exact unchanged_intact hi rfl rfl rfl
    | true =>
      cases old with
      | none => exact record_intact hi ho.1 ho.2 rfl rfl rfl
      | some old =>
        exact supersede_intact hi ho.1 ho.2.1 ho.2.2.1 (fun q hq hne r hr hy => absurd hy (ho.2.2.2 q hq hne r hr))
          rfl rfl rfl
  | refresh old => exact hi
  | removePendingReplace old => exact drop_intact hi ho rfl rfl rfl
  | «import» old new =>
    cases ok with
    | false => exact unchanged_intact hi rfl rfl rfl
    | true => exact record_intact hi ho.1 ho.2 rfl rfl rfl

theorem ends_listed (h : Heap) (m : Manager) (st : Step) (ok : Bool) (q : Ptr)
    (hq : q ∈ listed (ends h m st ok).1) : q ∈ m.base ∨ q ∈ m.resources ∨ newOf st = some q := by
  have hsub : ∀ (m' : Manager) (n : Option Ptr), m'.base = m.base → (∀ x ∈ m'.resources, x ∈ m.resources ∨ x ∈ n.toList) →
      q ∈ listed m' → q ∈ m.base ∨ q ∈ m.resources ∨ n = some q := by
    intro m' n hb hr hq
    rcases List.mem_append.mp hq with hq | hq
    · rcases hr q hq with h | h
      · exact Or.inr (Or.inl h)
      · exact Or.inr (Or.inr (by simpa using h))
    · exact Or.inl (hb ▸ (List.mem_filter.mp hq).1)
  refine hsub _ (newOf st) ?_ ?_ hq
  · cases st with
    | same o n sk => cases sk <;> rfl
    | create o n pd =>
      cases ok <;> cases o <;> simp only [ends, endCreate] <;> repeat' split
      all_goals simp_all [Manager.markDone, Manager.markNew, Manager.markComplete]
    | update o n => cases ok <;> rfl
    | delete o r =>
      cases ok <;> simp only [ends, endDelete] <;> repeat' split
      all_goals simp_all [Manager.markDone, Manager.markComplete]
    | read o n r => cases ok <;> cases o <;> rfl
    | «import» o n => cases ok <;> rfl
    | _ => rfl
  · intro x hx
    cases st with
    | same o n sk => cases sk <;> simp_all [ends, endSame, Manager.markDone, Manager.markNew, newOf]
    | create o n pd =>
      cases ok <;> cases o <;> simp only [ends, endCreate] at hx <;> (repeat' split at hx) <;>
        simp_all [Manager.markDone, Manager.markNew, Manager.markComplete, newOf]
    | update o n =>
      cases ok <;> simp_all [ends, endUpdate, Manager.markDone, Manager.markNew, Manager.markComplete, newOf]
    | delete o r =>
      cases ok <;> simp only [ends, endDelete] at hx <;> (repeat' split at hx) <;>
        simp_all [Manager.markDone, Manager.markComplete]
    | read o n r =>
      cases ok <;> cases o <;>
        simp_all [ends, endRead, Manager.markDone, Manager.markNew, Manager.markComplete, newOf]
    | «import» o n =>
      cases ok <;> simp_all [ends, endImport, Manager.markNew, Manager.markComplete, newOf]
    | _ => simp_all [ends, Manager.markDone]

theorem noAliases_listed {s : Sys} (ha : NoAliases s) {q : Ptr} (hq : q ∈ listed s.mgr) : (s.heap q).aliases = [] := by
  refine ha q ?_
  rcases List.mem_append.mp hq with hq | hq
  · simp [hq]
  · simp [(List.mem_filter.mp hq).1]

theorem filterMap_marked {E : Env} (h : Heap) (f : Ptr → Option Ptr) (base : List Ptr)
    (hs : ∀ q ∈ base, ∀ q', f q = some q' → SameCore (h q') (h q) ∧ (h q').delete = (h q).delete) :
    IntactFrom E [] (base.map h) →
    IntactFrom E [] ((base.map (fun q => (((f q).map h).getD (h q), (f q).isSome))).map (·.1)) := by
  intro hi
  simp only [List.map_map]
  refine intact_core (b := []) (f := h) ?_ ?_ hi
  · intro q hq
    simp only [List.nil_append] at hq
    simp only [Function.comp]
    cases hf : f q with
    | none => exact SameCore.refl _
    | some q' => exact (hs q hq q' hf).1
  · intro q hq hd
    simp only [Function.comp]
    cases hf : f q with
    | none => exact hd
    | some q' => exact (hs q hq q' hf).2.trans hd

theorem filter_marked (h : Heap) (f : Ptr → Option Ptr) (base : List Ptr) :
    (((base.map (fun q => (((f q).map h).getD (h q), (f q).isSome))).filter (·.2)).map (·.1)) =
      (base.filterMap f).map h := by
  induction base with
  | nil => rfl
  | cons q base ih =>
    cases hf : f q with
    | none => simpa [List.filterMap_cons, hf] using ih
    | some q' => simpa [List.filterMap_cons, hf] using ih

theorem orderly_rebuild {E : Env} {s : Sys} {f : List (Ptr × Option Ptr)}
    (hi : IntactFrom E [] ((listed s.mgr).map s.heap)) (ho : RebuildsOrderly E s f) :
    IntactFrom E [] ((listed { s.mgr with base := (rebuildBase (stepFor f) s.heap s.mgr.base).2 }).map
      (rebuildBase (stepFor f) s.heap s.mgr.base).1) := by
  simp only [listed, ho.first.1, ho.first.2, List.nil_append, List.not_mem_nil, not_false_eq_true, decide_true,
    filter_all] at hi ⊢
  rw [rebuildBase_states _ _ _ ho.nodup, ← filter_marked]
  have hs : ∀ q ∈ s.mgr.base, ∀ q', stepFor f q = some q' →
      SameCore (s.heap q') (s.heap q) ∧ (s.heap q').delete = (s.heap q).delete := by
    intro q hq q' hf
    have ⟨h1, h2, h3, h4, h5, h6, h7⟩ := ho.same q hq q' hf
    exact ⟨⟨h1, h2, h3, h4, h5, h6⟩, h7⟩
  refine rebuilt_intact (filterMap_marked _ _ _ hs hi) ?_
  intro x hx hx2 r hr y hy hyr
  have ⟨q, hq, hxq⟩ := List.mem_map.mp hx
  have ⟨z, hz, hyz⟩ := List.mem_map.mp hy
  subst hxq; subst hyz
  simp only at hx2 hr hyr ⊢
  have hq' : stepFor f q ≠ none := by intro hn; rw [hn] at hx2; simp at hx2
  have hprov : (s.heap q).provider = .ref r := by
    cases hf : stepFor f q with
    | none => exact absurd hf hq'
    | some q' => rw [hf] at hr; rw [← (hs q hq q' hf).1.provider]; exact hr
  have hpz : Provides E (s.heap z) r := by
    cases hf : stepFor f z with
    | none => rw [hf] at hyr; exact hyr
    | some z' =>
      rw [hf] at hyr
      have hc := (hs z hz z' hf).1
      exact ⟨by rw [← hc.type]; exact hyr.1, hc.urn.symm.trans hyr.2.1, hc.id.symm.trans hyr.2.2⟩
  have := ho.providers q hq hq' r hprov z hz hpz
  cases hf : stepFor f z with
  | none => exact absurd hf this
  | some _ => rfl

theorem set_core (h : Heap) (p : Ptr) (g : State → State)
    (hg : ∀ x, SameCore (g x) x ∧ (g x).delete = x.delete ∧ (g x).aliases = x.aliases) (q : Ptr) :
    SameCore ((h.set p (g (h p))) q) (h q) ∧ ((h.set p (g (h p))) q).delete = (h q).delete ∧
      ((h.set p (g (h p))) q).aliases = (h q).aliases := by
  by_cases hq : q = p
  · subst hq; rw [Heap.set_same]; exact hg _
  · rw [Heap.set_other _ _ hq]; exact ⟨SameCore.refl _, rfl, rfl⟩

theorem inv2_next {E : Env} {s s' : Sys} {e : Event} (hI : Inv s) (h : Inv2 E s) (ho : Orderly E s e)
    (hn : next E s e = some s') : Inv2 E s' := by
  obtain ⟨ha, ho⟩ := ho
  cases e with
  | begin st b =>
    simp only [next] at hn
    cases hb : begins st with
    | none =>
      simp only [hb, Option.some.injEq] at hn
      subst hn
      exact ⟨h.next, h.disk⟩
    | some pt =>
      obtain ⟨p, t⟩ := pt
      simp only [hb, Option.some.injEq] at hn
      subst hn
      have hl : IntactFrom E [] ((listed (s.mgr.markPending p t)).map s.heap) := unchanged_intact h.next rfl rfl rfl
      exact ⟨by rw [service_listed]; exact hl, intact_service _ b (fun q hq => noAliases_listed ha hq) hl h.disk⟩
  | act i o =>
    simp only [next] at hn
    split at hn
    · split at hn
      · simp only [Option.some.injEq] at hn; subst hn; exact ⟨h.next, h.disk⟩
      · simp at hn
    · simp at hn
  | ret i outs rid =>
    simp only [next] at hn
    split at hn
    · rename_i st o hi
      simp only [Option.some.injEq] at hn
      subst hn
      have hen := hI.entries _ (List.mem_of_getElem? hi)
      have hnot : ∀ q ∈ listed s.mgr, newOf st ≠ some q := by
        intro q hq hnew
        have ⟨h1, h2⟩ := hen.1 q hnew
        rcases List.mem_append.mp hq with hq | hq
        · exact h1 hq
        · exact h2 (List.mem_filter.mp hq).1
      exact ⟨intact_heap (fun q hq => (apply_core _ _ _ _ _ q (hnot q hq)).1)
        (fun q hq => (apply_core _ _ _ _ _ q (hnot q hq)).2) h.next, h.disk⟩
    · simp at hn
  | finish i b =>
    simp only [next] at hn
    split at hn
    · rename_i st ok hi
      simp only [Option.some.injEq] at hn
      subst hn
      have hl := orderly_ends h.next (hI.entries _ (List.mem_of_getElem? hi)) (ho st ok hi)
      refine ⟨by rw [service_listed]; exact hl, intact_service _ b (fun q hq => ?_) hl h.disk⟩
      refine ha q ?_
      rcases ends_listed _ _ _ _ _ hq with hq | hq | hq
      · simp [hq]
      · simp [hq]
      · exact List.mem_append_right _ (List.mem_filterMap.mpr ⟨_, List.mem_of_getElem? hi, hq⟩)
    · simp at hn
  | abandon i =>
    simp only [next, Option.some.injEq] at hn
    subst hn
    exact ⟨h.next, h.disk⟩
  | outputs p outs b =>
    simp only [next, Option.some.injEq] at hn
    subst hn
    have hc := set_core s.heap p (fun x => { x with outputs := outs })
      (fun _ => ⟨⟨rfl, rfl, rfl, rfl, rfl, rfl⟩, rfl, rfl⟩)
    have hl : IntactFrom E [] ((listed s.mgr).map (s.heap.set p { s.heap p with outputs := outs })) :=
      intact_heap (fun q _ => (hc q).1) (fun q _ hd => (hc q).2.1.trans hd) h.next
    exact ⟨by rw [service_listed]; exact hl, intact_service _ b (fun q hq => (hc q).2.2.trans (noAliases_listed ha hq)) hl
      h.disk⟩
  | condemn p b =>
    simp only [next, Option.some.injEq] at hn
    subst hn
    have hc := set_core s.heap p (fun x => { x with pendingReplacement := b })
      (fun _ => ⟨⟨rfl, rfl, rfl, rfl, rfl, rfl⟩, rfl, rfl⟩)
    exact ⟨intact_heap (fun q _ => (hc q).1) (fun q _ hd => (hc q).2.1.trans hd) h.next, h.disk⟩
  | rebuild f =>
    simp only [next, Option.some.injEq] at hn
    subst hn
    exact ⟨orderly_rebuild h.next ho, h.disk⟩
  | close b =>
    simp only [next, Option.some.injEq] at hn
    subst hn
    split
    · exact ⟨by rw [service_listed]; exact h.next, intact_service _ b (fun q hq => noAliases_listed ha hq) h.next h.disk⟩
    · exact ⟨h.next, h.disk⟩

theorem inv2_again {E : Env} {s t : Sys} (h : IntactFrom E [] s.disk.resources) (hr : Reloads s t) : Inv2 E t := by
  have hd : IntactFrom E [] t.disk.resources := by rw [hr.disk]; exact h
  refine ⟨?_, hd⟩
  have h1 : t.mgr.resources = [] := by rw [hr.mgr]; rfl
  have h2 : t.mgr.dones = [] := by rw [hr.mgr]; rfl
  simp only [listed, h1, h2, List.nil_append, List.not_mem_nil, not_false_eq_true, decide_true,
    filter_all]
  rw [hr.loaded] at hd
  exact hd

theorem inv2_reach {E : Env} {s : Sys} (h : Reach E (fun s e => Careful s e ∧ Orderly E s e) s) : Inv s ∧ Inv2 E s := by
  induction h with
  | new h => exact ⟨⟨by simp, by simp, by simp, by simp, by simp [newManager]⟩, ⟨trivial, trivial⟩⟩
  | event _ ha hn ih => exact ⟨inv_next ih.1 ha.1 hn, inv2_next ih.1 ih.2 ha.2 hn⟩
  | again _ hr ih => exact ⟨inv_again ih.1.disk hr, inv2_again ih.2.disk hr⟩

end Pulumi.Snapshot
