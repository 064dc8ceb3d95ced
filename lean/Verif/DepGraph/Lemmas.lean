import Verif.DepGraph.Spec
namespace Pulumi.DepGraph
open Pulumi.Snapshot (State Provider Ref Env Intact Backed)

theorem isDependent_parsed {res ignore ch set} {c : State} (h : ∀ m, c.provider ≠ .malformed m) :
    ∃ b, isDependent res ignore ch set c = some b ∧
      (b = true ↔ ignore c.urn = false ∧ ((ch = true ∧ c.parent = res.urn) ∨ ∃ u ∈ set, Names c u)) := by
  unfold isDependent
  by_cases h1 : ignore c.urn = true
  · rw [if_pos h1]; exact ⟨_, rfl, by simp [h1]⟩
  rw [if_neg h1]
  have h1' : ignore c.urn = false := by simpa using h1
  by_cases h2 : (ch && decide (c.parent = res.urn)) = true
  · rw [if_pos h2]; refine ⟨_, rfl, ?_⟩; simp at h2; simp [h1', h2]
  rw [if_neg h2]
  have h2' : ¬ (ch = true ∧ c.parent = res.urn) := by simpa using h2
  by_cases h3 : c.deps.any (fun d => decide (d ∈ set)) = true
  · rw [if_pos h3]; refine ⟨_, rfl, ?_⟩
    simp only [List.any_eq_true, decide_eq_true_eq] at h3
    obtain ⟨d, hd, hs⟩ := h3
    simp only [true_iff]
    exact ⟨h1', Or.inr ⟨d, hs, Or.inl hd⟩⟩
  rw [if_neg h3]
  have h3' : ∀ d ∈ c.deps, d ∉ set := by
    intro d hd hs; exact h3 (List.any_eq_true.2 ⟨d, hd, by simpa using hs⟩)
  cases hp : c.provider with
  | malformed m => exact absurd hp (h m)
  | none =>
    refine ⟨_, rfl, ?_⟩
    simp only [Bool.false_eq_true, false_iff]
    rintro ⟨_, h | ⟨u, hu, hn⟩⟩
    · exact h2' h
    · rcases hn with hn | ⟨r, hr, _⟩
      · exact h3' _ hn hu
      · rw [hp] at hr; cases hr
  | ref r =>
    refine ⟨_, rfl, ?_⟩
    simp only [decide_eq_true_eq]
    constructor
    · intro hm; exact ⟨h1', Or.inr ⟨_, hm, Or.inr ⟨r, hp, rfl⟩⟩⟩
    · rintro ⟨_, h | ⟨u, hu, hn⟩⟩
      · exact absurd h h2'
      · rcases hn with hn | ⟨r', hr, e⟩
        · exact absurd hu (h3' _ hn)
        · rw [hp] at hr; cases hr; exact e ▸ hu

theorem Later.lt {rs ig ch i j} (h : Later rs ig ch i j) : i < j := by
  induction h with
  | child h => exact h
  | direct h => exact h
  | through _ h _ _ _ ih => omega

theorem Later.get {rs ig ch i j} (h : Later rs ig ch i j) : ∃ s, rs[j]? = some s := by
  cases h with
  | child _ h => exact ⟨_, h⟩
  | direct _ h => exact ⟨_, h⟩
  | through _ _ h => exact ⟨_, h⟩

theorem dependingOnFrom_spec {rs ig ch root} {res : State} (hroot : rs[root]? = some res) :
    ∀ (cs pre : List State) (set : List String), rs = pre ++ cs → root < pre.length → Parsed cs →
    (∀ u, u ∈ set ↔ ∃ k t, k < pre.length ∧ rs[k]? = some t ∧ t.urn = u ∧ (k = root ∨ Later rs ig ch root k)) →
    ∃ l, dependingOnFrom res ig ch pre.length cs set = some l ∧ l.Pairwise (· < ·) ∧
      ∀ j, j ∈ l ↔ pre.length ≤ j ∧ Later rs ig ch root j := by
  intro cs
  induction cs with
  | nil =>
    intro pre set hrs hlt _ _
    refine ⟨[], rfl, List.Pairwise.nil, fun j => ?_⟩
    simp only [List.not_mem_nil, false_iff]
    rintro ⟨h1, h2⟩
    obtain ⟨s, hs⟩ := h2.get
    rw [hrs, List.append_nil, List.getElem?_eq_none h1] at hs; cases hs
  | cons c cs ih =>
    intro pre set hrs hlt hp hset
    have hc : rs[pre.length]? = some c := by rw [hrs]; simp
    obtain ⟨b, hb, hiff⟩ := isDependent_parsed (res := res) (ignore := ig) (ch := ch) (set := set)
      (fun m => hp c (by simp) m)
    have hlater : b = true ↔ Later rs ig ch root pre.length := by
      rw [hiff]
      constructor
      · rintro ⟨h1, ⟨h2, h3⟩ | ⟨u, hu, hn⟩⟩
        · exact .child hlt hc hroot h1 h2 h3
        · obtain ⟨k, t, hk, ht, rfl, rfl | hl⟩ := (hset u).1 hu
          · exact .direct hlt hc h1 ⟨c, t, hc, ht, hn⟩
          · exact .through hl hk hc h1 ⟨c, t, hc, ht, hn⟩
      · intro h
        generalize hj : pre.length = j at *
        cases h with
        | child _ h2 h3 h4 h5 h6 =>
          rw [hc] at h2; cases h2; rw [hroot] at h3; cases h3
          exact ⟨h4, Or.inl ⟨h5, h6⟩⟩
        | direct _ h2 h3 h4 =>
          rw [hc] at h2; cases h2
          obtain ⟨s, t, hs, ht, hn⟩ := h4
          rw [hc] at hs; cases hs
          exact ⟨h3, Or.inr ⟨_, (hset _).2 ⟨root, t, hlt, ht, rfl, Or.inl rfl⟩, hn⟩⟩
        | through h1 h2 h3 h4 h5 =>
          rw [hc] at h3; cases h3
          obtain ⟨s, t, hs, ht, hn⟩ := h5
          rw [hc] at hs; cases hs
          exact ⟨h4, Or.inr ⟨_, (hset _).2 ⟨_, t, h2, ht, rfl, Or.inr h1⟩, hn⟩⟩
    have hpre : rs = (pre ++ [c]) ++ cs := by rw [hrs]; simp
    have hlen : (pre ++ [c]).length = pre.length + 1 := by simp
    have hp' : Parsed cs := fun s hs => hp s (by simp [hs])
    have key : ∀ set', (∀ u, u ∈ set' ↔ u ∈ set ∨ (b = true ∧ u = c.urn)) →
        ∃ l, dependingOnFrom res ig ch (pre.length + 1) cs set' = some l ∧ l.Pairwise (· < ·) ∧
          ∀ j, j ∈ l ↔ pre.length + 1 ≤ j ∧ Later rs ig ch root j := by
      intro set' hs'
      have := ih (pre ++ [c]) set' hpre (by omega) hp' (by
        intro u
        rw [hs' u, hset u, hlen]
        constructor
        · rintro (⟨k, t, h1, h2, h3, h4⟩ | ⟨h1, rfl⟩)
          · exact ⟨k, t, by omega, h2, h3, h4⟩
          · exact ⟨pre.length, c, by omega, hc, rfl, Or.inr (hlater.1 h1)⟩
        · rintro ⟨k, t, h1, h2, h3, h4⟩
          by_cases hk : k < pre.length
          · exact Or.inl ⟨k, t, hk, h2, h3, h4⟩
          · have : k = pre.length := by omega
            subst this
            rw [hc] at h2; cases h2
            rcases h4 with h4 | h4
            · omega
            · exact Or.inr ⟨hlater.2 h4, h3.symm⟩)
      rw [hlen] at this
      exact this
    unfold dependingOnFrom
    rw [hb]
    cases b with
    | true =>
      obtain ⟨l, h1, h2, h3⟩ := key (c.urn :: set) (by intro u; simp [or_comm])
      refine ⟨pre.length :: l, by simp [h1], ?_, ?_⟩
      · refine List.Pairwise.cons (fun j hj => ?_) h2
        have := ((h3 j).1 hj).1; omega
      · intro j
        rw [List.mem_cons, h3]
        constructor
        · rintro (rfl | ⟨h, h'⟩)
          · exact ⟨Nat.le_refl _, hlater.1 rfl⟩
          · exact ⟨by omega, h'⟩
        · rintro ⟨h, h'⟩
          rcases Nat.lt_or_eq_of_le h with h | h
          · exact Or.inr ⟨h, h'⟩
          · exact Or.inl h.symm
    | false =>
      obtain ⟨l, h1, h2, h3⟩ := key set (by intro u; simp)
      refine ⟨l, h1, h2, ?_⟩
      intro j
      rw [h3]
      constructor
      · rintro ⟨h, h'⟩; exact ⟨by omega, h'⟩
      · rintro ⟨h, h'⟩
        rcases Nat.lt_or_eq_of_le h with h | h
        · exact ⟨h, h'⟩
        · subst h; exact absurd (hlater.2 h') (by simp)

theorem dependingOn_spec {rs ig ch i} (hp : Parsed rs) (hi : i < rs.length) :
    ∃ l, dependingOn rs i ig ch = some l ∧ l.Pairwise (· < ·) ∧ ∀ j, j ∈ l ↔ Later rs ig ch i j := by
  have hres : rs[i]? = some rs[i] := List.getElem?_eq_getElem hi
  unfold dependingOn
  rw [hres]
  have hlen : (rs.take (i + 1)).length = i + 1 := by simp; omega
  have h := dependingOnFrom_spec (ig := ig) (ch := ch) hres (rs.drop (i + 1)) (rs.take (i + 1)) [rs[i].urn]
    (List.take_append_drop _ _).symm (by omega) (fun s hs => hp s (List.mem_of_mem_drop hs)) (by
      intro u
      rw [hlen, List.mem_singleton]
      constructor
      · rintro rfl; exact ⟨i, _, by omega, hres, rfl, Or.inl rfl⟩
      · rintro ⟨k, t, hk, ht, rfl, rfl | hl⟩
        · rw [hres] at ht; cases ht; rfl
        · have := hl.lt; omega)
  rw [hlen] at h
  obtain ⟨l, h1, h2, h3⟩ := h
  refine ⟨l, h1, h2, fun j => ?_⟩
  rw [h3]
  exact ⟨fun h => h.2, fun h => ⟨h.lt, h⟩⟩

/-! ## Intact lists -/

theorem backed_at {E} {rs : List State} {a : Nat} {s : State} (h : Intact E rs) (ha : rs[a]? = some s) : Backed E (rs.take a) s := by
  obtain ⟨hlt, rfl⟩ := List.getElem?_eq_some_iff.1 ha
  exact h _ _ (rs.drop (a + 1)) (by simp)

theorem take_mem {rs : List State} {a : Nat} {x : State} (h : x ∈ rs.take a) : ∃ b, b < a ∧ rs[b]? = some x := by
  obtain ⟨b, hb, e⟩ := List.getElem_of_mem h
  simp only [List.length_take] at hb
  refine ⟨b, by omega, ?_⟩
  rw [List.getElem_take] at e
  rw [← e, List.getElem?_eq_getElem]

theorem intact_parsed {E rs} (h : Intact E rs) : Parsed rs := by
  intro s hs m hm
  obtain ⟨a, ha, rfl⟩ := List.getElem_of_mem hs
  have hb := backed_at h (List.getElem?_eq_getElem ha)
  rcases hb.provider with h | ⟨r, h, _⟩ <;> rw [hm] at h <;> cases h

theorem once_inj {rs : List State} {a b : Nat} {s t : State} (h : Once rs) (ha : rs[a]? = some s) (hb : rs[b]? = some t) (e : s.urn = t.urn) :
    a = b := by
  have hn : (rs.map (·.urn)).Nodup := h
  obtain ⟨hla, rfl⟩ := List.getElem?_eq_some_iff.1 ha
  obtain ⟨hlb, rfl⟩ := List.getElem?_eq_some_iff.1 hb
  rw [List.Nodup, List.pairwise_iff_getElem] at hn
  by_cases hab : a = b
  · exact hab
  rcases Nat.lt_or_gt_of_ne hab with hab | hab
  · exact absurd (by rw [List.getElem_map, List.getElem_map]; exact e) (hn a b (by simpa) (by simpa) hab)
  · exact absurd (by rw [List.getElem_map, List.getElem_map]; exact e.symm) (hn b a (by simpa) (by simpa) hab)

/-- What a resource names is listed before it, or is itself. -/
theorem refers_before {E rs a b} (h : Intact E rs) (ho : Once rs) (hr : Refers rs a b) : b ≤ a := by
  obtain ⟨s, t, hs, ht, hn⟩ := hr
  have hb := backed_at h hs
  rcases hn with hn | ⟨r, hp, e⟩
  · obtain ⟨x, hx, e⟩ := hb.deps _ hn
    obtain ⟨c, hc, hcx⟩ := take_mem hx
    have := once_inj ho hcx ht e
    omega
  · rcases hb.provider with h | ⟨r', h', x, hx, _, e', _⟩
    · rw [hp] at h; cases h
    · rw [hp] at h'; cases h'
      rw [List.mem_append, List.mem_singleton] at hx
      rcases hx with hx | rfl
      · obtain ⟨c, hc, hcx⟩ := take_mem hx
        have := once_inj ho hcx ht (by rw [e', e])
        omega
      · have := once_inj ho hs ht (by rw [e', e])
        omega

theorem dependsOn_le {E rs a b} (h : Intact E rs) (ho : Once rs) (hr : DependsOn rs a b) : b ≤ a := by
  induction hr with
  | direct h1 => exact refers_before h ho h1
  | through h1 _ ih => have := refers_before h ho h1; omega

theorem later_dependsOn {rs ig i j} (h : Later rs ig false i j) : DependsOn rs j i := by
  induction h with
  | child _ _ _ _ h => cases h
  | direct _ _ _ h => exact .direct h
  | through _ _ _ _ h ih => exact .through h ih

theorem dependsOn_later {E rs i j} (h : Intact E rs) (ho : Once rs) (hd : DependsOn rs j i) (hne : j ≠ i) :
    Later rs (fun _ => false) false i j := by
  induction hd with
  | @direct a b hr =>
    have := refers_before h ho hr
    obtain ⟨s, _, hs, _⟩ := id hr
    exact .direct (by omega) hs rfl hr
  | @through a b c hr hd ih =>
    have h1 := refers_before h ho hr
    have h2 := dependsOn_le h ho hd
    obtain ⟨s, _, hs, _⟩ := id hr
    by_cases hbc : b = c
    · subst hbc; exact .direct (by omega) hs rfl hr
    · by_cases hab : a = b
      · subst hab; exact ih hbc
      · exact .through (ih hbc) (by omega) hs rfl hr

end Pulumi.DepGraph
