import Verif.Graph.Spec
namespace Pulumi.Graph

/-- Number of members of `nodes` not yet in `seen`. -/
def unseen (nodes seen : List Addr) : Nat := (nodes.filter fun x => !decide (x ∈ seen)).length

theorem unseen_mono {nodes s s'} (h : ∀ x ∈ s, x ∈ s') : unseen nodes s' ≤ unseen nodes s := by
  unfold unseen
  induction nodes with
  | nil => simp
  | cons x xs ih =>
    simp only [List.filter_cons]
    by_cases h1 : x ∈ s
    · simp [h1, h x h1, ih]
    · by_cases h2 : x ∈ s'
      · simp [h1, h2]; omega
      · simp [h1, h2, ih]

theorem unseen_lt {nodes s a} (ha : a ∈ nodes) (hs : a ∉ s) : unseen nodes (s ++ [a]) < unseen nodes s := by
  unfold unseen
  induction nodes with
  | nil => simp at ha
  | cons x xs ih =>
    have hle : (xs.filter fun x => !decide (x ∈ s ++ [a])).length ≤ (xs.filter fun x => !decide (x ∈ s)).length :=
      unseen_mono (nodes := xs) (by intro y hy; simp [hy])
    simp only [List.filter_cons]
    by_cases hx : x = a
    · subst hx
      simp [hs]
      simp at hle
      omega
    · have ha' : a ∈ xs := by
        rcases List.mem_cons.1 ha with h | h
        · exact absurd h.symm hx
        · exact h
      have := ih ha'
      by_cases h1 : x ∈ s
      · simp [h1]; simp at this; exact this
      · simp [h1, hx]; simp at this; exact this

/-- What one call of `impl` guarantees. -/
def Post (h : Heap) (nodes : List Addr) (roots S : List Addr) : Option (Bool × List Addr) → Prop
  | none => False
  | some (true, _) => ∃ a ∈ roots, HoldsUnknown h a
  | some (false, S') => (∀ x ∈ S, x ∈ S') ∧ (∀ x ∈ S', x ∈ S ∨ x ∈ nodes) ∧
      (∀ a ∈ roots, a ∈ S' ∧ h a ≠ .unknown) ∧
      (∀ x ∈ S', x ∉ S → h x ≠ .unknown ∧ ∀ c ∈ (h x).children, c ∈ S' ∧ h c ≠ .unknown)

theorem reaches_child {h : Heap} {a b c} (hb : b ∈ (h a).children) (hr : Reaches h b c) : Reaches h a c := by
  cases ha : h a with
  | unknown => rw [ha] at hb; simp [Obj.children] at hb
  | other => rw [ha] at hb; simp [Obj.children] at hb
  | dict es =>
    rw [ha] at hb
    simp [Obj.children] at hb
    obtain ⟨k, hk⟩ := hb
    exact .dict ha hk hr
  | list xs =>
    rw [ha] at hb
    exact .list ha hb hr

theorem anyM_post {h : Heap} {nodes f n} (hf : ∀ a S, a ∈ nodes → unseen nodes S < n → (∀ x ∈ S, h x ≠ .unknown) → Post h nodes [a] S (f a S)) :
    ∀ xs S, (∀ a ∈ xs, a ∈ nodes) → unseen nodes S < n → (∀ x ∈ S, h x ≠ .unknown) → Post h nodes xs S (anyM f xs S) := by
  intro xs
  induction xs with
  | nil =>
    intro S _ _ _
    exact ⟨fun _ h => h, fun x hx => .inl hx, by simp, fun x hx hn => absurd hx hn⟩
  | cons x xs ih =>
    intro S hn hS hu
    have h1 := hf x S (hn x (by simp)) hS hu
    simp only [anyM]
    cases hfx : f x S with
    | none => rw [hfx] at h1; exact h1.elim
    | some p =>
      obtain ⟨b, S'⟩ := p
      rw [hfx] at h1
      cases b with
      | true =>
        obtain ⟨a, ha, hh⟩ := h1
        simp at ha; subst ha
        exact ⟨_, by simp, hh⟩
      | false =>
        obtain ⟨p1, p2, p3, p4⟩ := h1
        have hS' : ∀ y ∈ S', h y ≠ .unknown := by
          intro y hy
          by_cases hyS : y ∈ S
          · exact hu y hyS
          · exact (p4 y hy hyS).1
        have h2 := ih S' (fun a ha => hn a (by simp [ha])) (Nat.lt_of_le_of_lt (unseen_mono p1) hS) hS'
        simp only
        cases hfx2 : anyM f xs S' with
        | none => rw [hfx2] at h2; exact h2.elim
        | some p =>
          obtain ⟨b, S''⟩ := p
          rw [hfx2] at h2
          cases b with
          | true =>
            obtain ⟨a, ha, hh⟩ := h2
            exact ⟨_, by simp [ha], hh⟩
          | false =>
            obtain ⟨q1, q2, q3, q4⟩ := h2
            refine ⟨fun y hy => q1 y (p1 y hy), ?_, ?_, ?_⟩
            · intro y hy
              rcases q2 y hy with h | h
              · exact p2 y h
              · exact .inr h
            · intro a ha
              rcases List.mem_cons.1 ha with rfl | ha
              · exact ⟨q1 _ (p3 _ (by simp)).1, (p3 _ (by simp)).2⟩
              · exact q3 a ha
            · intro y hy hyS
              by_cases hyS' : y ∈ S'
              · obtain ⟨r1, r2⟩ := p4 y hyS' hyS
                exact ⟨r1, fun c hc => ⟨q1 c (r2 c hc).1, (r2 c hc).2⟩⟩
              · exact q4 y hy hyS'

theorem impl_post {h : Heap} {nodes} (hcl : ∀ a ∈ nodes, ∀ c ∈ (h a).children, c ∈ nodes) :
    ∀ fuel a S, a ∈ nodes → unseen nodes S < fuel → (∀ x ∈ S, h x ≠ .unknown) → Post h nodes [a] S (impl h fuel a S) := by
  intro fuel
  induction fuel with
  | zero => intro a S _ h; omega
  | succ fuel ih =>
    intro a S ha hS hu
    have inner : ∀ xs, xs = (h a).children → h a ≠ .unknown →
        Post h nodes [a] S (if a ∈ S then some (false, S) else anyM (impl h fuel) xs (S ++ [a])) := by
      intro xs hxs hne
      by_cases haS : a ∈ S
      · rw [if_pos haS]
        exact ⟨fun _ h => h, fun x hx => .inl hx, by intro b hb; simp at hb; subst hb; exact ⟨haS, hne⟩, fun x hx hn => absurd hx hn⟩
      · rw [if_neg haS]
        have h1 := anyM_post (n := fuel) (f := impl h fuel) (h := h) (nodes := nodes) ih xs (S ++ [a])
          (by subst hxs; exact hcl a ha) (by have := unseen_lt ha haS; omega)
          (by intro x hx; rcases List.mem_append.1 hx with hx | hx
              · exact hu x hx
              · simp at hx; subst hx; exact hne)
        cases hres : anyM (impl h fuel) xs (S ++ [a]) with
        | none => rw [hres] at h1; exact h1.elim
        | some p =>
          obtain ⟨b, S'⟩ := p
          rw [hres] at h1
          cases b with
          | true =>
            obtain ⟨c, hc, b', hr, hb'⟩ := h1
            subst hxs
            exact ⟨a, by simp, b', reaches_child hc hr, hb'⟩
          | false =>
            obtain ⟨p1, p2, p3, p4⟩ := h1
            refine ⟨fun x hx => p1 x (by simp [hx]), ?_, ?_, ?_⟩
            · intro x hx
              rcases p2 x hx with h | h
              · rcases List.mem_append.1 h with h | h
                · exact .inl h
                · simp at h; subst h; exact .inr ha
              · exact .inr h
            · intro b hb; simp at hb; subst hb; exact ⟨p1 _ (by simp), hne⟩
            · intro x hx hxS
              by_cases hxa : x = a
              · subst hxa
                exact ⟨hne, fun c hc => p3 c (by subst hxs; exact hc)⟩
              · exact p4 x hx (by simp [hxS, hxa])
    unfold impl
    cases hobj : h a with
    | unknown => exact ⟨a, by simp, a, .refl, hobj⟩
    | dict es => exact inner _ (by rw [hobj]; rfl) (by rw [hobj]; simp)
    | list xs => exact inner _ (by rw [hobj]; rfl) (by rw [hobj]; simp)
    | other => exact inner [] (by rw [hobj]; rfl) (by rw [hobj]; simp)

theorem reaches_trans {h : Heap} {a b c} (h1 : Reaches h a b) (h2 : Reaches h b c) : Reaches h a c := by
  induction h1 with
  | refl => exact h2
  | dict e m _ ih => exact .dict e m (ih h2)
  | list e m _ ih => exact .list e m (ih h2)

/-- A set closed under children that holds no unknown reaches no unknown. -/
theorem closed_no_unknown {h : Heap} {S : List Addr} (hS : ∀ x ∈ S, h x ≠ .unknown ∧ ∀ c ∈ (h x).children, c ∈ S ∧ h c ≠ .unknown)
    {a b} (ha : a ∈ S) (hr : Reaches h a b) : h b ≠ .unknown := by
  induction hr with
  | refl => exact (hS _ ha).1
  | dict e m _ ih =>
    refine ih ((hS _ ha).2 _ ?_).1
    rw [e]; simp only [Obj.children, List.mem_map]; exact ⟨_, m, rfl⟩
  | list e m _ ih => exact ih ((hS _ ha).2 _ (by rw [e]; exact m)).1

/-! ## massage -/

theorem isPrivate_iff (k : String) : isPrivate k = true ↔ k.toList.head? = some '_' := by
  simp [isPrivate]

/-- What a call of `massage` guarantees about `seen` and the result. -/
def MPost (bad : Prop) (S : List Addr) {α : Type} (P : α → Prop) : Ret (α × List Addr) → Prop
  | .ok (r, S') => (∀ x ∈ S, x ∈ S') ∧ P r
  | .raised _ => bad
  | .outOfFuel => False

theorem massageDict_post {nodes : List Addr} {bad : Prop} {f n}
    (hf : ∀ a S, a ∈ nodes → unseen nodes S < n → MPost bad S NoPrivateKeys (f a S)) :
    ∀ es S, (∀ p ∈ es, p.2 ∈ nodes) → ((∃ a, (.notStr, a) ∈ es) → bad) → unseen nodes S < n →
      MPost bad S (fun rs => NoPrivateKeys (.dict rs)) (massageDict f es S) := by
  intro es
  induction es with
  | nil => intro S _ _ _; exact ⟨fun _ h => h, .dict (by simp) (by simp)⟩
  | cons e es ih =>
    intro S hn hbad hS
    obtain ⟨k, a⟩ := e
    cases k with
    | notStr => exact hbad ⟨a, by simp⟩
    | str k =>
      simp only [massageDict]
      by_cases hk : isPrivate k = true
      · rw [if_pos hk]; exact ih S (fun p hp => hn p (by simp [hp])) (fun ⟨a, h⟩ => hbad ⟨a, by simp [h]⟩) hS
      · rw [if_neg hk]
        have h1 := hf a S (hn (.str k, a) (by simp)) hS
        cases hfa : f a S with
        | raised e => rw [hfa] at h1; exact h1
        | outOfFuel => rw [hfa] at h1; exact h1.elim
        | ok p =>
          obtain ⟨r, S'⟩ := p
          rw [hfa] at h1
          have h2 := ih S' (fun p hp => hn p (by simp [hp])) (fun ⟨a, h⟩ => hbad ⟨a, by simp [h]⟩) (Nat.lt_of_le_of_lt (unseen_mono h1.1) hS)
          simp only
          cases hfd : massageDict f es S' with
          | raised e => rw [hfd] at h2; exact h2
          | outOfFuel => rw [hfd] at h2; exact h2.elim
          | ok p =>
            obtain ⟨rs, S''⟩ := p
            rw [hfd] at h2
            refine ⟨fun x hx => h2.1 x (h1.1 x hx), ?_⟩
            have hd := h2.2
            cases hd with
            | dict ha hb =>
              refine .dict ?_ ?_
              · intro k' o hm
                rcases List.mem_cons.1 hm with h | h
                · cases h; exact fun hc => hk ((isPrivate_iff _).2 hc)
                · exact ha k' o h
              · intro k' o hm
                rcases List.mem_cons.1 hm with h | h
                · cases h; exact h1.2
                · exact hb k' o h

theorem massageList_post {nodes : List Addr} {bad : Prop} {f n}
    (hf : ∀ a S, a ∈ nodes → unseen nodes S < n → MPost bad S NoPrivateKeys (f a S)) :
    ∀ es S, (∀ p ∈ es, p ∈ nodes) → unseen nodes S < n →
      MPost bad S (fun rs => NoPrivateKeys (.list rs)) (massageList f es S) := by
  intro es
  induction es with
  | nil => intro S _ _; exact ⟨fun _ h => h, .list (by simp)⟩
  | cons a es ih =>
    intro S hn hS
    simp only [massageList]
    have h1 := hf a S (hn a (by simp)) hS
    cases hfa : f a S with
    | raised e => rw [hfa] at h1; exact h1
    | outOfFuel => rw [hfa] at h1; exact h1.elim
    | ok p =>
      obtain ⟨r, S'⟩ := p
      rw [hfa] at h1
      have h2 := ih S' (fun p hp => hn p (by simp [hp])) (Nat.lt_of_le_of_lt (unseen_mono h1.1) hS)
      simp only
      cases hfd : massageList f es S' with
      | raised e => rw [hfd] at h2; exact h2
      | outOfFuel => rw [hfd] at h2; exact h2.elim
      | ok p =>
        obtain ⟨rs, S''⟩ := p
        rw [hfd] at h2
        refine ⟨fun x hx => h2.1 x (h1.1 x hx), ?_⟩
        have hd := h2.2
        cases hd with
        | list ha =>
          refine .list ?_
          intro o hm
          rcases List.mem_cons.1 hm with h | h
          · cases h; exact h1.2
          · exact ha o h

theorem massage_post {dry : Bool} {h : MHeap} {nodes} {bad : Prop} (hcl : ∀ a ∈ nodes, ∀ c ∈ (h a).below, c ∈ nodes)
    (hdry : dry = true → bad) (hkey : ∀ x ∈ nodes, ∀ es a, h x = .dict es → (.notStr, a) ∈ es → bad) :
    ∀ fuel a S, a ∈ nodes → unseen nodes S < fuel → MPost bad S NoPrivateKeys (massage dry h fuel a S) := by
  intro fuel
  induction fuel with
  | zero => intro a S _ h; omega
  | succ fuel ih =>
    intro a S ha hS
    unfold massage
    cases hobj : h a with
    | prim v => exact ⟨fun _ h => h, .prim⟩
    | output =>
      simp only
      by_cases haS : a ∈ S
      · rw [if_pos haS]; exact ⟨fun _ h => h, .none⟩
      · rw [if_neg haS]; exact ⟨fun _ h => by simp [h], .applied⟩
    | awaitable =>
      simp only
      by_cases haS : a ∈ S
      · rw [if_pos haS]; exact ⟨fun _ h => h, .none⟩
      · rw [if_neg haS]; exact ⟨fun _ h => by simp [h], .applied⟩
    | object d =>
      simp only
      by_cases haS : a ∈ S
      · rw [if_pos haS]; exact ⟨fun _ h => h, .none⟩
      · rw [if_neg haS]
        have h1 := ih d (S ++ [a]) (hcl a ha d (by rw [hobj]; simp [MObj.below])) (by have := unseen_lt ha haS; omega)
        cases hm : massage dry h fuel d (S ++ [a]) with
        | raised e => rw [hm] at h1; exact h1
        | outOfFuel => rw [hm] at h1; exact h1.elim
        | ok p =>
          rw [hm] at h1
          exact ⟨fun x hx => h1.1 x (by simp [hx]), h1.2⟩
    | resource d =>
      simp only
      by_cases haS : a ∈ S
      · rw [if_pos haS]; exact ⟨fun _ h => h, .urnOf⟩
      · rw [if_neg haS]
        have h1 := ih d (S ++ [a]) (hcl a ha d (by rw [hobj]; simp [MObj.below])) (by have := unseen_lt ha haS; omega)
        cases hm : massage dry h fuel d (S ++ [a]) with
        | raised e => rw [hm] at h1; exact h1
        | outOfFuel => rw [hm] at h1; exact h1.elim
        | ok p =>
          obtain ⟨r, S'⟩ := p
          rw [hm] at h1
          have hsub : ∀ x ∈ S, x ∈ S' := fun x hx => h1.1 x (by simp [hx])
          cases dry with
          | false => exact ⟨hsub, h1.2⟩
          | true =>
            have hr := h1.2
            cases r with
            | dict es =>
              refine ⟨hsub, ?_⟩
              cases hr with
              | dict ha hb =>
                refine .dict ?_ ?_
                · intro k o hm
                  rcases List.mem_append.1 hm with h | h
                  · exact ha k o h
                  · simp at h; obtain ⟨rfl, rfl⟩ := h; decide
                · intro k o hm
                  rcases List.mem_append.1 hm with h | h
                  · exact hb k o h
                  · simp at h; obtain ⟨rfl, rfl⟩ := h; exact .true
            | _ => exact hdry rfl
    | dict es =>
      simp only
      by_cases haS : a ∈ S
      · rw [if_pos haS]; exact ⟨fun _ h => h, .none⟩
      · rw [if_neg haS]
        have h1 := massageDict_post (n := fuel) ih es (S ++ [a])
          (by intro p hp; exact hcl a ha _ (by rw [hobj]; simp only [MObj.below, List.mem_map]; exact ⟨p, hp, rfl⟩))
          (fun ⟨b, hb⟩ => hkey a ha es b hobj hb)
          (by have := unseen_lt ha haS; omega)
        cases hm : massageDict (massage dry h fuel) es (S ++ [a]) with
        | raised e => rw [hm] at h1; exact h1
        | outOfFuel => rw [hm] at h1; exact h1.elim
        | ok p =>
          rw [hm] at h1
          exact ⟨fun x hx => h1.1 x (by simp [hx]), h1.2⟩
    | iterable xs =>
      simp only
      by_cases haS : a ∈ S
      · rw [if_pos haS]; exact ⟨fun _ h => h, .none⟩
      · rw [if_neg haS]
        have h1 := massageList_post (n := fuel) ih xs (S ++ [a])
          (by intro p hp; exact hcl a ha _ (by rw [hobj]; exact hp))
          (by have := unseen_lt ha haS; omega)
        cases hm : massageList (massage dry h fuel) xs (S ++ [a]) with
        | raised e => rw [hm] at h1; exact h1
        | outOfFuel => rw [hm] at h1; exact h1.elim
        | ok p =>
          rw [hm] at h1
          exact ⟨fun x hx => h1.1 x (by simp [hx]), h1.2⟩

mutual
theorem exports_massage {dry h} : ∀ {a r ns}, Exports dry h a r ns → ∃ bound, ∀ fuel, bound ≤ fuel → ∀ S,
    ns.Nodup → (∀ x ∈ ns, x ∉ S) → massage dry h fuel a S = .ok (r, S ++ ns)
  | _, _, _, .prim e => ⟨1, by
      intro fuel hf S _ _
      obtain ⟨f, rfl⟩ := Nat.exists_eq_add_of_le' hf
      simp [massage, e]⟩
  | _, _, _, .output e => ⟨1, by
      intro fuel hf S _ hd
      obtain ⟨f, rfl⟩ := Nat.exists_eq_add_of_le' hf
      simp [massage, e, hd _ (List.mem_singleton.2 rfl)]⟩
  | _, _, _, .awaitable e => ⟨1, by
      intro fuel hf S _ hd
      obtain ⟨f, rfl⟩ := Nat.exists_eq_add_of_le' hf
      simp [massage, e, hd _ (List.mem_singleton.2 rfl)]⟩
  | _, _, _, .dict e hx => by
      obtain ⟨b, hb⟩ := exportsDict_massage hx
      refine ⟨b + 1, ?_⟩
      intro fuel hf S hnd hd
      obtain ⟨f, rfl⟩ := Nat.exists_eq_add_of_le' (Nat.le_trans (Nat.le_add_left 1 b) hf)
      simp only [List.nodup_cons] at hnd
      have h1 := hb f (by omega) (S ++ [_]) hnd.2 (by
        intro x hx hc
        rcases List.mem_append.1 hc with hc | hc
        · exact hd x (by simp [hx]) hc
        · simp at hc; subst hc; exact hnd.1 hx)
      simp [massage, e, hd _ (List.mem_cons_self), h1]
  | _, _, _, .object e hx => by
      obtain ⟨b, hb⟩ := exports_massage hx
      refine ⟨b + 1, ?_⟩
      intro fuel hf S hnd hd
      obtain ⟨f, rfl⟩ := Nat.exists_eq_add_of_le' (Nat.le_trans (Nat.le_add_left 1 b) hf)
      simp only [List.nodup_cons] at hnd
      have h1 := hb f (by omega) (S ++ [_]) hnd.2 (by
        intro x hx hc
        rcases List.mem_append.1 hc with hc | hc
        · exact hd x (by simp [hx]) hc
        · simp at hc; subst hc; exact hnd.1 hx)
      simp [massage, e, hd _ (List.mem_cons_self), h1]
  | _, _, _, .resource e hx => by
      obtain ⟨b, hb⟩ := exports_massage hx
      refine ⟨b + 1, ?_⟩
      intro fuel hf S hnd hd
      obtain ⟨f, rfl⟩ := Nat.exists_eq_add_of_le' (Nat.le_trans (Nat.le_add_left 1 b) hf)
      simp only [List.nodup_cons] at hnd
      have h1 := hb f (by omega) (S ++ [_]) hnd.2 (by
        intro x hx hc
        rcases List.mem_append.1 hc with hc | hc
        · exact hd x (by simp [hx]) hc
        · simp at hc; subst hc; exact hnd.1 hx)
      cases dry <;> simp [massage, e, hd _ (List.mem_cons_self), h1]
  | _, _, _, .iterable e hx => by
      obtain ⟨b, hb⟩ := exportsList_massage hx
      refine ⟨b + 1, ?_⟩
      intro fuel hf S hnd hd
      obtain ⟨f, rfl⟩ := Nat.exists_eq_add_of_le' (Nat.le_trans (Nat.le_add_left 1 b) hf)
      simp only [List.nodup_cons] at hnd
      have h1 := hb f (by omega) (S ++ [_]) hnd.2 (by
        intro x hx hc
        rcases List.mem_append.1 hc with hc | hc
        · exact hd x (by simp [hx]) hc
        · simp at hc; subst hc; exact hnd.1 hx)
      simp [massage, e, hd _ (List.mem_cons_self), h1]
theorem exportsDict_massage {dry h} : ∀ {es rs ns}, ExportsDict dry h es rs ns → ∃ bound, ∀ fuel, bound ≤ fuel → ∀ S,
    ns.Nodup → (∀ x ∈ ns, x ∉ S) → massageDict (massage dry h fuel) es S = .ok (rs, S ++ ns)
  | _, _, _, .nil => ⟨0, by intros; simp [massageDict]⟩
  | _, _, _, .priv hk hx => by
      obtain ⟨b, hb⟩ := exportsDict_massage hx
      refine ⟨b, ?_⟩
      intro fuel hf S hnd hd
      simp [massageDict, (isPrivate_iff _).2 hk, hb fuel hf S hnd hd]
  | _, _, _, .pub hk ha hx => by
      obtain ⟨b1, hb1⟩ := exports_massage ha
      obtain ⟨b2, hb2⟩ := exportsDict_massage hx
      refine ⟨b1 + b2, ?_⟩
      intro fuel hf S hnd hd
      rw [List.nodup_append] at hnd
      have h1 := hb1 fuel (by omega) S hnd.1 (fun x hx => hd x (by simp [hx]))
      have h2 := hb2 fuel (by omega) (S ++ _) hnd.2.1 (by
        intro x hx hc
        rcases List.mem_append.1 hc with hc | hc
        · exact hd x (by simp [hx]) hc
        · exact hnd.2.2 _ hc _ hx rfl)
      have hk' := mt (isPrivate_iff _).1 hk
      simp only [Bool.not_eq_true] at hk'
      simp [massageDict, hk', h1, h2]
theorem exportsList_massage {dry h} : ∀ {as rs ns}, ExportsList dry h as rs ns → ∃ bound, ∀ fuel, bound ≤ fuel → ∀ S,
    ns.Nodup → (∀ x ∈ ns, x ∉ S) → massageList (massage dry h fuel) as S = .ok (rs, S ++ ns)
  | _, _, _, .nil => ⟨0, by intros; simp [massageList]⟩
  | _, _, _, .cons ha hx => by
      obtain ⟨b1, hb1⟩ := exports_massage ha
      obtain ⟨b2, hb2⟩ := exportsList_massage hx
      refine ⟨b1 + b2, ?_⟩
      intro fuel hf S hnd hd
      rw [List.nodup_append] at hnd
      have h1 := hb1 fuel (by omega) S hnd.1 (fun x hx => hd x (by simp [hx]))
      have h2 := hb2 fuel (by omega) (S ++ _) hnd.2.1 (by
        intro x hx hc
        rcases List.mem_append.1 hc with hc | hc
        · exact hd x (by simp [hx]) hc
        · exact hnd.2.2 _ hc _ hx rfl)
      simp [massageList, h1, h2]
end

end Pulumi.Graph
