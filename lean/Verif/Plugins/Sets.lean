import Verif.Plugins.Select
/-!
# Sets of plugins, and the default ones (C199)
-/
namespace Pulumi.Plugins

/-! ## Removing what says less -/

theorem key_vague {p q : Plugin} (h : p.name = q.name) (hp : p.vague = true) (hq : q.vague = true) : p.key = q.key := by
  unfold Plugin.vague at hp hq
  simp only [Bool.and_eq_true, Option.isNone_iff_eq_none] at hp hq
  unfold Plugin.key
  rw [hp.1, hq.1]
  exact h

/-- What the two maps of `Deduplicate` have after some of the set. -/
structure DedupInv (done : List Plugin) (st : (String → Option Plugin) × List Plugin) : Prop where
  last : ∀ n p, st.1 n = some p → p ∈ done ∧ p.name = n ∧ p ∈ st.2 ∧ (p.vague = true → ∀ q ∈ done, q.name = n → q = p)
  none : ∀ n, st.1 n = Option.none → ∀ q ∈ done, q.name ≠ n
  mem : ∀ q, q ∈ st.2 ↔ q ∈ done ∧ (q.vague = true → ∀ p ∈ done, p.name = q.name → p = q)

theorem mem_addPlugin {s : List Plugin} {p q : Plugin} (h : ∀ x ∈ s, x.key ≠ p.key) : q ∈ addPlugin s p ↔ q ∈ s ∨ q = p := by
  unfold addPlugin
  rw [List.mem_append, List.mem_singleton, List.mem_filter]
  constructor
  · rintro (⟨a, _⟩ | a)
    · exact .inl a
    · exact .inr a
  · rintro (a | a)
    · exact .inl ⟨a, by simpa using h q a⟩
    · exact .inr a

theorem dedup_step {done : List Plugin} {st : (String → Option Plugin) × List Plugin} (h : DedupInv done st) {p : Plugin} (hk : ∀ q ∈ done, q.key ≠ p.key)
    (hset : ∀ q ∈ done, ∀ r ∈ done, q.key = r.key → q = r) :
    DedupInv (done ++ [p]) (dedupStep st p) := by
  have hnew : p ∉ done := fun hp => hk p hp rfl
  have hkey : ∀ x ∈ st.2, x.key ≠ p.key := fun x hx => hk x ((h.mem x).mp hx).1
  have hmem : ∀ q, q ∈ done ++ [p] ↔ q ∈ done ∨ q = p := fun q => by rw [List.mem_append, List.mem_singleton]
  unfold dedupStep
  cases hl : st.1 p.name with
  | none =>
    simp only
    have hno := h.none _ hl
    refine ⟨fun n q hq => ?_, fun n hn q hq => ?_, fun q => ?_⟩
    · simp only at hq
      by_cases e : n = p.name
      · rw [if_pos e] at hq; cases hq
        refine ⟨(hmem p).mpr (.inr rfl), e.symm, (mem_addPlugin hkey).mpr (.inr rfl), fun _ x hx hxn => ?_⟩
        rcases (hmem x).mp hx with hx | hx
        · exact absurd (hxn.trans e) (hno x hx)
        · exact hx
      · rw [if_neg e] at hq
        obtain ⟨a, b, c, d⟩ := h.last n q hq
        refine ⟨(hmem q).mpr (.inl a), b, (mem_addPlugin hkey).mpr (.inl c), fun hv x hx hxn => ?_⟩
        rcases (hmem x).mp hx with hx | hx
        · exact d hv x hx hxn
        · rw [hx] at hxn; exact absurd hxn.symm e
    · simp only at hn
      by_cases e : n = p.name
      · rw [if_pos e] at hn; cases hn
      · rw [if_neg e] at hn
        rcases (hmem q).mp hq with hq | hq
        · exact h.none n hn q hq
        · rw [hq]; exact fun e' => e e'.symm
    · simp only
      rw [mem_addPlugin hkey, h.mem, hmem]
      constructor
      · rintro (⟨a, b⟩ | e)
        · refine ⟨.inl a, fun hv x hx hxn => ?_⟩
          rcases (hmem x).mp hx with hx | hx
          · exact b hv x hx hxn
          · rw [hx] at hxn; exact absurd hxn.symm (hno q a)
        · refine ⟨.inr e, fun hv x hx hxn => ?_⟩
          rcases (hmem x).mp hx with hx | hx
          · rw [e] at hxn; exact absurd hxn (hno x hx)
          · rw [hx, e]
      · rintro ⟨a | a, b⟩
        · exact .inl ⟨a, fun hv x hx hxn => b hv x ((hmem x).mpr (.inl hx)) hxn⟩
        · exact .inr a
  | some prev =>
    simp only
    obtain ⟨pd, pn, ps, pv⟩ := h.last _ _ hl
    have hne : prev ≠ p := fun e => hnew (e ▸ pd)
    by_cases hv : p.vague = true
    · rw [if_pos hv]
      have hpv : prev.vague = false := by
        cases e : prev.vague with
        | false => rfl
        | true => exact absurd (key_vague pn e hv) (hk prev pd)
      refine ⟨fun n q hq => ?_, fun n hn q hq => ?_, fun q => ?_⟩
      · obtain ⟨a, b, c, d⟩ := h.last n q hq
        refine ⟨(hmem q).mpr (.inl a), b, c, fun hqv x hx hxn => ?_⟩
        rcases (hmem x).mp hx with hx | hx
        · exact d hqv x hx hxn
        · rw [hx] at hxn
          rw [← hxn] at hq
          rw [hl] at hq; cases hq
          rw [hpv] at hqv; cases hqv
      · rcases (hmem q).mp hq with hq | hq
        · exact h.none n hn q hq
        · intro e
          rw [hq] at e
          rw [← e, hl] at hn; cases hn
      · rw [h.mem, hmem]
        constructor
        · rintro ⟨a, b⟩
          refine ⟨.inl a, fun hqv x hx hxn => ?_⟩
          rcases (hmem x).mp hx with hx | hx
          · exact b hqv x hx hxn
          · rw [hx] at hxn
            exact absurd (key_vague hxn.symm hqv hv) (hk q a)
        · rintro ⟨a | a, b⟩
          · exact ⟨a, fun hqv x hx hxn => b hqv x ((hmem x).mpr (.inl hx)) hxn⟩
          · rw [a] at b
            exact absurd (b hv prev ((hmem prev).mpr (.inl pd)) pn) hne
    · rw [if_neg hv]
      -- the set without the vague one of the same name
      have hS : ∀ q, q ∈ (if prev.vague then st.2.filter (·.key ≠ prev.key) else st.2) ↔ q ∈ st.2 ∧ (prev.vague = true → q ≠ prev) := by
        intro q
        by_cases e : prev.vague = true
        · rw [if_pos e, List.mem_filter]
          constructor
          · rintro ⟨a, b⟩
            refine ⟨a, fun _ e' => ?_⟩
            rw [e'] at b; simp at b
          · rintro ⟨a, b⟩
            refine ⟨a, ?_⟩
            have hd := ((h.mem q).mp a).1
            have : q.key ≠ prev.key := fun hkq => b e (hset q hd prev pd hkq)
            simpa using this
        · rw [if_neg e]
          exact ⟨fun a => ⟨a, fun e' => absurd e' e⟩, fun a => a.1⟩
      have hkey' : ∀ x ∈ (if prev.vague then st.2.filter (·.key ≠ prev.key) else st.2), x.key ≠ p.key := fun x hx => hkey x ((hS x).mp hx).1
      refine ⟨fun n q hq => ?_, fun n hn q hq => ?_, fun q => ?_⟩
      · simp only at hq
        by_cases e : n = p.name
        · rw [if_pos e] at hq; cases hq
          exact ⟨(hmem p).mpr (.inr rfl), e.symm, (mem_addPlugin hkey').mpr (.inr rfl), fun hv' => absurd hv' hv⟩
        · rw [if_neg e] at hq
          obtain ⟨a, b, c, d⟩ := h.last n q hq
          refine ⟨(hmem q).mpr (.inl a), b, (mem_addPlugin hkey').mpr (.inl ((hS q).mpr ⟨c, fun _ e' => ?_⟩)), fun hqv x hx hxn => ?_⟩
          · rw [e'] at b; exact e (b.symm.trans pn)
          · rcases (hmem x).mp hx with hx | hx
            · exact d hqv x hx hxn
            · rw [hx] at hxn; exact absurd hxn.symm e
      · simp only at hn
        by_cases e : n = p.name
        · rw [if_pos e] at hn; cases hn
        · rw [if_neg e] at hn
          rcases (hmem q).mp hq with hq | hq
          · exact h.none n hn q hq
          · rw [hq]; exact fun e' => e e'.symm
      · simp only
        rw [mem_addPlugin hkey', hS, h.mem, hmem]
        constructor
        · rintro (⟨⟨a, b⟩, c⟩ | e)
          · refine ⟨.inl a, fun hqv x hx hxn => ?_⟩
            rcases (hmem x).mp hx with hx | hx
            · exact b hqv x hx hxn
            · rw [hx] at hxn
              have : prev = q := b hqv prev pd (pn.trans hxn)
              exact absurd this.symm (c (this ▸ hqv))
          · exact ⟨.inr e, fun hqv => absurd (e ▸ hqv) hv⟩
        · rintro ⟨a | a, b⟩
          · refine .inl ⟨⟨a, fun hqv x hx hxn => b hqv x ((hmem x).mpr (.inl hx)) hxn⟩, fun hpv e => ?_⟩
            have := b (e ▸ hpv) p ((hmem p).mpr (.inr rfl)) (by rw [e]; exact pn.symm)
            exact hnew (this ▸ a)
          · exact .inr a

theorem set_key {s : List Plugin} (h : IsSet s) : ∀ q ∈ s, ∀ r ∈ s, q.key = r.key → q = r := by
  induction s with
  | nil => intro q hq; cases hq
  | cons x s ih =>
    unfold IsSet at h
    rw [List.pairwise_cons] at h
    intro q hq r hr e
    rcases List.mem_cons.mp hq with hq' | hq' <;> rcases List.mem_cons.mp hr with hr' | hr'
    · rw [hq', hr']
    · exact absurd (hq' ▸ e) (h.1 r hr')
    · exact absurd (hr' ▸ e).symm (h.1 q hq')
    · exact ih h.2 q hq' r hr' e

theorem dedup_inv {l : List Plugin} (h : IsSet l) (done : List Plugin) (st : (String → Option Plugin) × List Plugin) (hI : DedupInv done st)
    (hs : IsSet (done ++ l)) : DedupInv (done ++ l) (l.foldl dedupStep st) := by
  induction l generalizing done st with
  | nil => rw [List.append_nil]; exact hI
  | cons p l ih =>
    have hd : ∀ q ∈ done, q.key ≠ p.key := by
      intro q hq
      unfold IsSet at hs
      rw [List.pairwise_append] at hs
      exact hs.2.2 q hq p List.mem_cons_self
    have hset : ∀ q ∈ done, ∀ r ∈ done, q.key = r.key → q = r :=
      fun q hq r hr e => set_key hs q (List.mem_append_left _ hq) r (List.mem_append_left _ hr) e
    have := ih (List.pairwise_cons.mp h).2 (done ++ [p]) _ (dedup_step hI hd hset) (by rw [List.append_assoc]; exact hs)
    rwa [List.append_assoc] at this

theorem isSet_perm {s l : List Plugin} (h : IsSet s) (hp : l.Perm s) : IsSet l := by
  unfold IsSet at h ⊢
  exact (hp.pairwise_iff (fun {a b} (hab : a.key ≠ b.key) => hab.symm)).mpr h

/-- **C199** In whatever order the map is walked, of a set are left all plugins but those without version and place to download that are not the only one of
their name. -/
theorem dedup_exact {s walk : List Plugin} (h : IsSet s) (hp : walk.Perm s) (q : Plugin) :
    q ∈ dedup walk ↔ q ∈ s ∧ (q.version = none → q.url = "" → ∀ p ∈ s, p.name = q.name → p = q) := by
  have hI := dedup_inv (isSet_perm h hp) [] (fun _ => none, []) ⟨fun n p e => (by cases e), fun n _ q hq => (by cases hq), fun q => (by simp)⟩
    (by simpa using isSet_perm h hp)
  rw [List.nil_append] at hI
  have := hI.mem q
  unfold dedup
  rw [this, hp.mem_iff]
  refine and_congr_right fun _ => ?_
  unfold Plugin.vague
  simp only [Bool.and_eq_true, Option.isNone_iff_eq_none, beq_iff_eq]
  constructor
  · exact fun h a b x hx hn => h ⟨a, b⟩ x (hp.mem_iff.mpr hx) hn
  · exact fun h ⟨a, b⟩ x hx hn => h a b x (hp.mem_iff.mp hx) hn

example : dedup [⟨.resource, "aws", none, ""⟩, ⟨.resource, "aws", some v1, ""⟩, ⟨.resource, "gcp", none, ""⟩] =
    [⟨.resource, "aws", some v1, ""⟩, ⟨.resource, "gcp", none, ""⟩] := by decide +kernel

/-- **C199, finding** Sets know plugins by name and version, not by kind: of two of different kinds one is forgotten. -/
theorem sets_forget_kinds : newSet [⟨.analyzer, "aws", some v1, ""⟩, ⟨.resource, "aws", some v1, ""⟩] = [⟨.resource, "aws", some v1, ""⟩] := by decide +kernel

/-- **C199, finding** And one without a version is removed for one of another kind. -/
theorem dedup_forgets_kinds : dedup [⟨.resource, "aws", none, ""⟩, ⟨.analyzer, "aws", some v1, ""⟩] = [⟨.analyzer, "aws", some v1, ""⟩] := by decide +kernel

/-! ## Default plugins -/

/-- After a sorted list the loop has the last resource plugin of every name, and no assertion has failed. -/
theorem defaults_fold {l : List Plugin} (hs : l.Pairwise fun p q => less q.version p.version = false) (m : String → Option Plugin)
    (hm : ∀ n p, m n = some p → ∀ q ∈ l, less q.version p.version = false) :
    ∃ m', l.foldlM defaultStep m = some m' ∧ ∀ n, m' n = ((l.filter fun p => p.kind = .resource ∧ p.name = n).getLast?).or (m n) := by
  induction l generalizing m with
  | nil => exact ⟨m, rfl, fun n => rfl⟩
  | cons x l ih =>
    rw [List.pairwise_cons] at hs
    by_cases hk : x.kind = .resource
    · have hstep : defaultStep m x = some fun n => if n = x.name then some x else m n := by
        unfold defaultStep
        rw [if_neg (by simpa using hk)]
        cases hx : m x.name with
        | none => rfl
        | some seen =>
          have hle := hm _ _ hx x List.mem_cons_self
          simp only
          cases hsv : seen.version with
          | none => rfl
          | some w =>
            rw [hsv] at hle
            cases hxv : x.version with
            | none => rw [hxv] at hle; cases hle
            | some v =>
              rw [hxv] at hle
              simp only
              rw [if_pos]
              simp only [less] at hle
              cases hc : v.cmp w <;> simp_all
      obtain ⟨m', h1, h2⟩ := ih hs.2 (fun n => if n = x.name then some x else m n) (fun n p hp q hq => by
        by_cases e : n = x.name
        · rw [if_pos e] at hp; cases hp; exact hs.1 q hq
        · rw [if_neg e] at hp; exact hm n p hp q (List.mem_cons_of_mem _ hq))
      refine ⟨m', by rw [List.foldlM_cons, hstep]; exact h1, fun n => ?_⟩
      rw [h2 n]
      by_cases e : n = x.name
      · rw [List.filter_cons_of_pos (by simp [hk, e]), if_pos e, List.getLast?_cons]
        cases (l.filter fun p => decide (p.kind = .resource ∧ p.name = n)).getLast? <;> rfl
      · rw [List.filter_cons_of_neg (by simp [hk, Ne.symm e]), if_neg e]
    · have hstep : defaultStep m x = some m := by
        unfold defaultStep
        rw [if_pos (by simpa using hk)]
      obtain ⟨m', h1, h2⟩ := ih hs.2 m fun n p hp q hq => hm n p hp q (List.mem_cons_of_mem _ hq)
      refine ⟨m', by rw [List.foldlM_cons, hstep]; exact h1, fun n => ?_⟩
      rw [h2 n, List.filter_cons_of_neg (by simp [hk])]

/-- What the default plugin of a package is to be: a resource plugin of that name, and every other one of the name has a lower version -/
def IsDefault (s : List Plugin) (n : String) : Option Plugin → Prop
  | none => ∀ q ∈ s, ¬ (q.kind = .resource ∧ q.name = n)
  | some p => p ∈ s ∧ p.kind = .resource ∧ p.name = n ∧ ∀ q ∈ s, q.kind = .resource → q.name = n → q ≠ p → less q.version p.version = true

theorem isDefault_unique {s : List Plugin} {n : String} {a b : Option Plugin} (ha : IsDefault s n a) (hb : IsDefault s n b) : a = b := by
  cases a with
  | none =>
    cases b with
    | none => rfl
    | some q => exact absurd ⟨hb.2.1, hb.2.2.1⟩ (ha q hb.1)
  | some p =>
    cases b with
    | none => exact absurd ⟨ha.2.1, ha.2.2.1⟩ (hb p ha.1)
    | some q =>
      by_cases e : q = p
      · rw [e]
      · have h1 := ha.2.2.2 q hb.1 hb.2.1 hb.2.2.1 e
        have h2 := hb.2.2.2 p ha.1 ha.2.1 ha.2.2.1 (Ne.symm e)
        rw [less_asymm h1] at h2; cases h2

theorem key_text {p q : Plugin} (hn : p.name = q.name) (h : p.version.map Version.text = q.version.map Version.text) : p.key = q.key := by
  unfold Plugin.key
  cases hp : p.version <;> cases hq : q.version <;> rw [hp, hq] at h <;> simp_all

/-- **C199** In whatever order the set is walked and however ties are sorted: no assertion fails, and the default plugin of every package is the one with the
greatest version. -/
theorem defaults_exact {s walk l : List Plugin} (h : IsSet s) (hw : walk.Perm s) (hs : Sorts walk l) :
    ∃ m, defaultsOf l = some m ∧ ∀ n, IsDefault s n (m n) := by
  obtain ⟨m, h1, h2⟩ := defaults_fold hs.2 (fun _ => none) (fun n p e => by cases e)
  have hp : l.Perm s := hs.1.trans hw
  refine ⟨m, h1, fun n => ?_⟩
  rw [h2 n, Option.or_none]
  cases hl : (l.filter fun p => decide (p.kind = .resource ∧ p.name = n)).getLast? with
  | none =>
    intro q hq hk
    rw [List.getLast?_eq_none_iff] at hl
    have : q ∈ l.filter fun p => decide (p.kind = .resource ∧ p.name = n) := List.mem_filter.mpr ⟨hp.mem_iff.mpr hq, by simpa using hk⟩
    rw [hl] at this; cases this
  | some p =>
    have hm := List.mem_filter.mp (List.mem_of_getLast? hl)
    have hk : p.kind = .resource ∧ p.name = n := by simpa using hm.2
    refine ⟨hp.mem_iff.mp hm.1, hk.1, hk.2, fun q hq hqk hqn hne => ?_⟩
    obtain ⟨pre, hpre⟩ := List.getLast?_eq_some_iff.mp hl
    have hsorted : (l.filter fun p => decide (p.kind = .resource ∧ p.name = n)).Pairwise fun p q => less q.version p.version = false := hs.2.filter _
    have hqm : q ∈ l.filter fun p => decide (p.kind = .resource ∧ p.name = n) := List.mem_filter.mpr ⟨hp.mem_iff.mpr hq, by simp [hqk, hqn]⟩
    rw [hpre] at hsorted hqm
    have hqpre : q ∈ pre := by
      rcases List.mem_append.mp hqm with h | h
      · exact h
      · exact absurd (List.mem_singleton.mp h) hne
    have hle := (List.pairwise_append.mp hsorted).2.2 q hqpre p List.mem_cons_self
    cases hlt : less q.version p.version with
    | true => rfl
    | false => exact absurd (set_key h q hq p (hp.mem_iff.mp hm.1) (key_text (hqn.trans hk.2.symm) (less_tie hlt hle))) hne

/-- **C199** So the default plugins do not depend on either order. -/
theorem defaults_deterministic {s walk₁ walk₂ l₁ l₂ : List Plugin} (h : IsSet s) (hw₁ : walk₁.Perm s) (hs₁ : Sorts walk₁ l₁) (hw₂ : walk₂.Perm s)
    (hs₂ : Sorts walk₂ l₂) : defaultsOf l₁ = defaultsOf l₂ ∧ (defaultsOf l₁).isSome = true := by
  obtain ⟨m₁, e₁, d₁⟩ := defaults_exact h hw₁ hs₁
  obtain ⟨m₂, e₂, d₂⟩ := defaults_exact h hw₂ hs₂
  rw [e₁, e₂]
  exact ⟨congrArg some (funext fun n => isDefault_unique (d₁ n) (d₂ n)), rfl⟩

/-- **C199** What the language host reports is used alone if it has a resource plugin; else everything that is known. -/
theorem default_source (language all : List Plugin) :
    ((∃ p ∈ language, p.kind = .resource) → defaultSource language all = language) ∧
    ((∀ p ∈ language, p.kind ≠ .resource) → defaultSource language all = all) := by
  constructor
  · rintro ⟨p, hp, hk⟩
    exact if_pos (List.any_eq_true.mpr ⟨p, hp, by simpa using hk⟩)
  · intro h
    refine if_neg fun hc => ?_
    obtain ⟨p, hp, hk⟩ := List.any_eq_true.mp hc
    exact h p hp (by simpa using hk)

theorem newSet_isSet (l : List Plugin) : IsSet (newSet l) := by
  have : ∀ (l s : List Plugin), IsSet s → IsSet (l.foldl addPlugin s) := by
    intro l
    induction l with
    | nil => exact fun s h => h
    | cons p l ih =>
      intro s h
      refine ih _ ?_
      unfold addPlugin IsSet
      rw [List.pairwise_append]
      refine ⟨List.Pairwise.filter _ h, List.pairwise_singleton _ _, fun a ha b hb => ?_⟩
      rw [List.mem_singleton.mp hb]
      simpa using (List.mem_filter.mp ha).2
  exact this l [] .nil

example : IsSet demoPlugins.dropLast := by unfold IsSet; decide +kernel
example : (defaultsOf [⟨.resource, "aws", none, ""⟩, ⟨.resource, "aws", some v1, ""⟩, ⟨.resource, "aws", some v2, ""⟩]).map (· "aws") =
    some (some ⟨.resource, "aws", some v2, ""⟩) := by decide +kernel

end Pulumi.Plugins
