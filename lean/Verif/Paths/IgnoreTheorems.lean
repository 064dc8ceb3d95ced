import Verif.Paths.IgnoreLemmas
import Verif.Paths.Theorems
/-!
# What `ignoreChanges` ignores
-/
namespace Pulumi.Paths
open Pulumi.Engine (EV)

theorem loop_bad : ∀ (opts bad : List Text) (s : IState), bad ≠ [] → ∀ s', ignoreLoop opts bad s ≠ .done s' := by
  intro opts
  induction opts with
  | nil => intro bad s hb s' h; unfold ignoreLoop at h; rw [if_neg hb] at h; cases h
  | cons o opts ih =>
    intro bad s hb s' h
    unfold ignoreLoop at h
    cases hp : parse o with
    | error e => rw [hp] at h; exact ih bad s hb s' h
    | ok p =>
      rw [hp] at h; simp only at h
      cases hi : ignoreOne s p with
      | crash => rw [hi] at h; cases h
      | bad => rw [hi] at h; exact ih _ s (by simp) s' h
      | ok t => rw [hi] at h; exact ih bad t hb s' h

/-- what one path keeps, all of them do -/
theorem loop_inv (P : IState → Prop) : ∀ (opts : List Text) (s : IState),
    (∀ s s' p, IsPath opts p → P s → ignoreOne s p = .ok s' → P s') → P s → ∀ s', ignoreLoop opts [] s = .done s' → P s' := by
  intro opts
  induction opts with
  | nil => intro s _ hs s' h; unfold ignoreLoop at h; rw [if_pos rfl] at h; cases h; exact hs
  | cons o opts ih =>
    intro s hstep hs s' h
    have hstep' : ∀ s s' p, IsPath opts p → P s → ignoreOne s p = .ok s' → P s' :=
      fun a b p ⟨o', ho', hp⟩ => hstep a b p ⟨o', by simp [ho'], hp⟩
    unfold ignoreLoop at h
    cases hp : parse o with
    | error e => rw [hp] at h; exact ih s hstep' hs s' h
    | ok p =>
      rw [hp] at h; simp only at h
      cases hi : ignoreOne s p with
      | crash => rw [hi] at h; cases h
      | bad => rw [hi] at h; exact absurd h (loop_bad _ _ _ (by simp) s')
      | ok t => rw [hi] at h; exact ih t hstep' (hstep s t p ⟨o, by simp, hp⟩ hs hi) s' h

theorem copyGet_missing {s : IState} {p : Path} (h1 : get p s.own = none) (h2 : get p s.old = none) : copyGet s p = none := by
  match p with
  | [] => rfl
  | .idx i :: ks => rfl
  | .name k :: ks =>
    rw [copyGet_name]
    cases srcOf k s.copy with
    | none => rfl
    | some x => cases x <;> assumption

theorem loop_kept : ∀ (opts : List Text) (s s' : IState), Sound s → ignoreLoop opts [] s = .done s' → ∀ p, IsPath opts p →
    Kept p s.old (copyGet s' p) := by
  intro opts
  induction opts with
  | nil => intro s s' _ _ p ⟨o, ho, _⟩; cases ho
  | cons o opts ih =>
    intro s s' hs h p hp
    unfold ignoreLoop at h
    cases ho : parse o with
    | error e =>
      rw [ho] at h
      apply ih s s' hs h p
      obtain ⟨o', ho', hp'⟩ := hp
      rcases List.mem_cons.1 ho' with rfl | hm
      · rw [ho] at hp'; cases hp'
      · exact ⟨o', hm, hp'⟩
    | ok q =>
      rw [ho] at h; simp only at h
      cases hi : ignoreOne s q with
      | crash => rw [hi] at h; cases h
      | bad => rw [hi] at h; exact absurd h (loop_bad _ _ _ (by simp) s')
      | ok t =>
        rw [hi] at h; simp only at h
        have hold := ignoreOne_old hi
        obtain ⟨o', ho', hp'⟩ := hp
        rcases List.mem_cons.1 ho' with rfl | hm
        · rw [ho] at hp'; injection hp' with hp'; subst hp'
          have hne : q ≠ [] := by
            rintro rfl
            rw [(ignoreOne_crash hs []).2 rfl] at hi; cases hi
          have hk : Kept q s.old (copyGet t q) := ignoreOne_kept hi (fun h1 h2 => .inl (copyGet_missing h1 h2))
          have := loop_inv (fun u => u.old = s.old ∧ Kept q s.old (copyGet u q)) opts t (by
            intro a b r _ ⟨ha, hka⟩ hr
            refine ⟨(ignoreOne_old hr).trans ha, ?_⟩
            rw [← ha] at hka ⊢
            exact ignoreOne_keeps hr hne hka) ⟨hold, hk⟩ s' h
          exact this.2
        · rw [← hold]
          exact ih t s' (sound_ignoreOne hs hi) h p ⟨o', hm, hp'⟩

/-- **Every path that is ignored keeps its old value**: in the inputs that the update goes on with it has the value it had in the
old ones; if it had none it has none, or null if it is in an array. However many paths there are and in whatever order. -/
theorem ignored_kept (inputs old : List (String × EV)) (opts : List Text) (s : IState)
    (h : processIgnoreChanges inputs old opts = .done s) (p : Path) (hp : IsPath opts p) : Kept p (.object old) (copyGet s p) :=
  loop_kept opts _ s (sound_start inputs old) h p hp

/-- **Nothing else changes**: whatever is apart from all the ignored paths is what the program said. -/
theorem others_unchanged (inputs old : List (String × EV)) (opts : List Text) (s : IState)
    (h : processIgnoreChanges inputs old opts = .done s) (q : Path) (hq : q ≠ []) (hap : ∀ p, IsPath opts p → Apart p q) :
    copyGet s q = get q (.object inputs) := by
  have := loop_inv (fun u => copyGet u q = get q (.object inputs)) opts (startCopy inputs old) (by
    intro a b p hp ha hr
    rcases ignoreOne_cases hr with ⟨v, _, hc⟩ | ⟨_, _, hc⟩ | ⟨_, _, rfl⟩
    · rw [changed_apart (local_put v) (set_changed hc) (hap p hp)]; exact ha
    · rw [changed_apart local_drop (delete_changed hc) (hap p hp)]; exact ha
    · exact ha) (copyGet_start inputs old q hq) s h
  exact this

/-- **The old inputs are not modified**, although the result shares what is in them. -/
theorem old_inputs_kept (inputs old : List (String × EV)) (opts : List Text) (s : IState)
    (h : processIgnoreChanges inputs old opts = .done s) : s.old = .object old :=
  loop_inv (fun u => u.old = .object old) opts (startCopy inputs old) (fun _ _ _ _ ha hr => (ignoreOne_old hr).trans ha) rfl s h

/-- an update of a resource with tags: `env` is ignored, `size` changes -/
def newIn : List (String × EV) := [("size", .num 2), ("tags", .object [("env", .str "new"), ("team", .str "y")])]
def oldIn : List (String × EV) := [("size", .num 1), ("tags", .object [("env", .str "old")])]

example : ∃ s, processIgnoreChanges newIn oldIn ["tags.env".toList] = .done s ∧
    copyGet s [.name "tags".toList] = some (.object [("env", .str "old"), ("team", .str "y")]) ∧
    copyGet s [.name "size".toList] = some (.num 2) := ⟨_, rfl, rfl, rfl⟩

example : IsPath ["tags.env".toList] [.name "tags".toList, .name "env".toList] := ⟨"tags.env".toList, by simp, by rfl⟩

/-- **The engine panics exactly if one of the texts is no key at all**, as `""` and `"."` are: the assertion that an existing
value can be set never fails otherwise. -/
theorem crash_exactly (inputs old : List (String × EV)) (opts : List Text) :
    processIgnoreChanges inputs old opts = .crashed ↔ IsPath opts [] := by
  have aux : ∀ (opts bad : List Text) (s : IState), Sound s → (ignoreLoop opts bad s = .crashed ↔ IsPath opts []) := by
    intro opts
    induction opts with
    | nil =>
      intro bad s _
      unfold ignoreLoop
      constructor
      · intro h
        by_cases hb : bad = []
        · rw [if_pos hb] at h; cases h
        · rw [if_neg hb] at h; cases h
      · rintro ⟨_, ho, _⟩; cases ho
    | cons o opts ih =>
      intro bad s hs
      unfold ignoreLoop
      cases ho : parse o with
      | error e =>
        simp only
        rw [ih bad s hs]
        constructor
        · rintro ⟨o', h1, h2⟩; exact ⟨o', by simp [h1], h2⟩
        · rintro ⟨o', h1, h2⟩
          rcases List.mem_cons.1 h1 with rfl | h1
          · rw [ho] at h2; cases h2
          · exact ⟨o', h1, h2⟩
      | ok q =>
        simp only
        have hcr := ignoreOne_crash hs q
        have hrest : q ≠ [] → (IsPath (o :: opts) [] ↔ IsPath opts []) := by
          intro hq
          constructor
          · rintro ⟨o', h1, h2⟩
            rcases List.mem_cons.1 h1 with rfl | h1
            · rw [ho] at h2; cases h2; exact absurd rfl hq
            · exact ⟨o', h1, h2⟩
          · rintro ⟨o', h1, h2⟩; exact ⟨o', by simp [h1], h2⟩
        cases hi : ignoreOne s q with
        | crash =>
          have : q = [] := hcr.1 hi
          subst this
          exact ⟨fun _ => ⟨o, by simp, ho⟩, fun _ => rfl⟩
        | bad =>
          have hq : q ≠ [] := by rintro rfl; rw [hcr.2 rfl] at hi; cases hi
          simp only
          rw [ih _ s hs, hrest hq]
        | ok t =>
          have hq : q ≠ [] := by rintro rfl; rw [hcr.2 rfl] at hi; cases hi
          simp only
          rw [ih _ t (sound_ignoreOne hs hi), hrest hq]
  exact aux opts [] _ (sound_start inputs old)

example : processIgnoreChanges newIn oldIn ["size".toList, "".toList] = .crashed := by rfl

/-! ## what is refused -/

/-- the old inputs have a value there, and the new ones have no place for it -/
def Unplaceable (inputs old : List (String × EV)) (o : Text) : Prop :=
  ∃ p, parse o = .ok p ∧ (get p (.object old)).isSome = true ∧ get p (.object inputs) = none ∧ ¬ HasPlace (.object inputs) p

theorem accepts_put {d d' : EV} {j k : Key} {v : EV} (h : putKey d j v = some d') : Accepts d' k ↔ Accepts d k := by
  cases j with
  | idx i =>
    obtain ⟨xs, rfl, _, _⟩ := (putKey_isSome d (.idx i) v).1 ⟨_, h⟩
    simp only [putKey] at h
    by_cases hi : 0 ≤ i ∧ i < xs.length
    · rw [if_pos hi] at h; cases h
      cases k with
      | idx j => simp [Accepts]
      | name n => simp [Accepts]
    · rw [if_neg hi] at h; cases h
  | name n =>
    obtain ⟨kvs, rfl⟩ := (putKey_isSome d (.name n) v).1 ⟨_, h⟩
    cases h
    cases k <;> simp [Accepts]

theorem accepts_drop {d d' : EV} {j k : Key} (h : dropKey d j = some d') : Accepts d' k ↔ Accepts d k := by
  cases j with
  | idx i => rw [dropKey_idx] at h; exact accepts_put h
  | name n =>
    obtain ⟨kvs, rfl⟩ := (dropKey_isSome d (.name n)).1 ⟨_, h⟩
    cases h
    cases k <;> simp [Accepts]

theorem accepts_change {f : EV → Key → Option EV} (hf : ∀ {d d' : EV} {j k : Key}, f d j = some d' → (Accepts d' k ↔ Accepts d k))
    {r : Path} {d d' : EV} {k : Key} (h : change f r d = some d') : Accepts d' k ↔ Accepts d k := by
  cases r with
  | nil => cases h
  | cons j r =>
    by_cases hr : r = []
    · subst hr; exact hf h
    · rw [change_cons hr] at h
      obtain ⟨_, _, _, _, hp⟩ := h
      exact accepts_put hp

/-- a change apart from a path leaves its place -/
theorem hasPlace_apart {f : EV → Key → Option EV} (hl : Local f)
    (hf : ∀ {d d' : EV} {j k : Key}, f d j = some d' → (Accepts d' k ↔ Accepts d k))
    {p q : Path} {t t' : EV} (h : change f q t = some t') (hap : Apart q p) : HasPlace t' p ↔ HasPlace t p := by
  have aux : ∀ (p' : Path) (k : Key), p = p' ++ [k] → ((∃ d, get p' t' = some d ∧ Accepts d k) ↔ ∃ d, get p' t = some d ∧ Accepts d k) := by
    intro p' k hp
    by_cases hqp : q <+: p'
    · exact absurd (hqp.trans (by rw [hp]; exact List.prefix_append p' [k])) hap.1
    · by_cases hpq : p' <+: q
      · obtain ⟨r, rfl⟩ := hpq
        have hr : r ≠ [] := by
          rintro rfl; apply hqp; rw [List.append_nil]; exact List.prefix_refl p'
        obtain ⟨w, w', h1, h2, h3⟩ := change_append r hr p' t t' h
        rw [h1, h3]
        constructor
        · rintro ⟨d, hd, ha⟩; cases hd; exact ⟨w, rfl, (accepts_change hf h2).1 ha⟩
        · rintro ⟨d, hd, ha⟩; cases hd; exact ⟨w', rfl, (accepts_change hf h2).2 ha⟩
      · rw [change_apart hl q p' t t' h ⟨hqp, hpq⟩]
  constructor
  · rintro ⟨p', k, d, hp, h1, h2⟩
    obtain ⟨d', h1', h2'⟩ := (aux p' k hp).1 ⟨d, h1, h2⟩
    exact ⟨p', k, d', hp, h1', h2'⟩
  · rintro ⟨p', k, d, hp, h1, h2⟩
    obtain ⟨d', h1', h2'⟩ := (aux p' k hp).2 ⟨d, h1, h2⟩
    exact ⟨p', k, d', hp, h1', h2'⟩

/-- for a path apart from those handled so far, nothing has happened yet -/
structure Fresh (inputs : EV) (s : IState) (p : Path) : Prop where
  value : get p s.own = get p inputs
  place : HasPlace s.own p ↔ HasPlace inputs p
  src : ∀ k ks, p = .name k :: ks → ks ≠ [] → (srcOf k s.copy = some .own ∧ (step inputs (.name k)).isSome = true) ∨
    (srcOf k s.copy = none ∧ step inputs (.name k) = none)

theorem fresh_changed {f : EV → Key → Option EV} (hl : Local f)
    (hf : ∀ {d d' : EV} {j k : Key}, f d j = some d' → (Accepts d' k ↔ Accepts d k))
    {inputs : EV} {s s' : IState} {p q : Path} (h : Changed f s q s') (hap : Apart q p) (hfr : Fresh inputs s p) : Fresh inputs s' p := by
  cases h with
  | top k c hq hs hc =>
    subst hs
    refine ⟨hfr.value, hfr.place, ?_⟩
    intro j ks hp hks
    simp only
    rw [hc j (by
      rintro rfl
      apply hap.1
      rw [hq, hp]
      exact List.cons_prefix_cons.2 ⟨rfl, List.nil_prefix⟩)]
    exact hfr.src j ks hp hks
  | own k ks t hq _ _ ht hs =>
    subst hs
    exact ⟨(change_apart hl q p s.own t ht hap).trans hfr.value, (hasPlace_apart hl hf ht hap).trans hfr.place, hfr.src⟩
  | old k ks t hq _ _ ht hs =>
    subst hs
    exact ⟨hfr.value, hfr.place, hfr.src⟩

theorem fresh_ignoreOne {inputs : EV} {s s' : IState} {p q : Path} (h : ignoreOne s q = .ok s') (hap : Apart q p)
    (hfr : Fresh inputs s p) : Fresh inputs s' p := by
  rcases ignoreOne_cases h with ⟨v, _, hc⟩ | ⟨_, _, hc⟩ | ⟨_, _, rfl⟩
  · exact fresh_changed (local_put v) accepts_put (set_changed hc) hap hfr
  · exact fresh_changed local_drop accepts_drop (delete_changed hc) hap hfr
  · exact hfr

theorem fresh_start (inputs old : List (String × EV)) (p : Path) : Fresh (.object inputs) (startCopy inputs old) p := by
  refine ⟨rfl, Iff.rfl, ?_⟩
  intro k ks _ _
  unfold startCopy
  simp only [srcOf_start]
  show _ ∧ (member k inputs).isSome = true ∨ _ ∧ member k inputs = none
  cases member k inputs with
  | none => exact .inr ⟨rfl, rfl⟩
  | some v => exact .inl ⟨rfl, rfl⟩

theorem hasPlace_step {t : EV} {k : Key} {ks : Path} (hks : ks ≠ []) (h : HasPlace t (k :: ks)) : (step t k).isSome = true := by
  obtain ⟨q, j, d, hp, hg, _⟩ := h
  cases q with
  | nil =>
    have hp' : k :: ks = [j] := hp
    cases hp'
    exact absurd rfl hks
  | cons i q =>
    rw [List.cons_append] at hp
    cases hp
    rw [get_cons] at hg
    cases hst : step t k with
    | none => rw [hst] at hg; cases hg
    | some w => rfl

/-- for such a path, exactly when it is refused -/
theorem bad_iff {inputs : EV} {s : IState} (hs : Sound s) {p : Path} (hp : p ≠ []) (hfr : Fresh inputs s p) (hin : ∃ kvs, inputs = .object kvs) :
    ignoreOne s p = .bad ↔ (get p s.old).isSome = true ∧ get p inputs = none ∧ ¬ HasPlace inputs p := by
  obtain ⟨ikvs, rfl⟩ := hin
  unfold ignoreOne
  rw [hfr.value]
  cases ho : get p s.old with
  | none =>
    simp only [Option.isSome_none, Bool.false_eq_true, false_and, iff_false]
    intro h
    by_cases hn : (get p (.object ikvs)).isSome = true
    · rw [if_pos hn] at h
      obtain ⟨w, hw⟩ := Option.isSome_iff_exists.1 hn
      have hpl := hfr.place.2 (hasPlace_of_get hp hw)
      match p with
      | [] => exact hp rfl
      | .idx i :: ks => cases hw
      | [.name k] => cases h
      | .name k :: j :: ks =>
        rcases hfr.src k (j :: ks) rfl (by simp) with ⟨hsrc, _⟩ | ⟨_, hst⟩
        · simp only [deleteCopy, hsrc] at h
          obtain ⟨t', ht⟩ := (hasPlace_change local_drop _ _).2 hpl
          unfold deleteAt at h
          rw [ht] at h
          cases h
        · rw [get_cons, hst] at hw; cases hw
    · rw [if_neg hn] at h; cases h
  | some v =>
    simp only [Option.isSome_some, true_and]
    match p with
    | [] => exact absurd rfl hp
    | .idx i :: ks =>
      obtain ⟨lkvs, hl⟩ := hs.old
      rw [hl] at ho; cases ho
    | [.name k] =>
      simp only [setCopy]
      constructor
      · intro h; cases h
      · rintro ⟨_, h⟩
        exact absurd ⟨[], .name k, .object ikvs, rfl, rfl, ⟨ikvs, rfl⟩⟩ h
    | .name k :: j :: ks =>
      have hpl := hfr.place
      rcases hfr.src k (j :: ks) rfl (by simp) with ⟨hsrc, hst⟩ | ⟨hsrc, hst⟩
      · simp only [setCopy, hsrc]
        cases hch : setAt (.name k :: j :: ks) v s.own with
        | some t' =>
          simp only [Option.map_some]
          constructor
          · intro h; cases h
          · rintro ⟨_, h⟩
            exact absurd (hpl.1 ((hasPlace_change (local_put v) _ _).1 ⟨t', hch⟩)) h
        | none =>
          simp only [Option.map_none]
          have hno : ¬ HasPlace s.own (.name k :: j :: ks) := by
            intro h
            obtain ⟨t', ht⟩ := (hasPlace_change (local_put v) _ _).2 h
            unfold setAt at hch; rw [ht] at hch; cases hch
          have hno' : ¬ HasPlace (.object ikvs) (.name k :: j :: ks) := fun h => hno (hpl.2 h)
          have hnone : get (.name k :: j :: ks) (.object ikvs) = none := by
            cases hg : get (.name k :: j :: ks) (.object ikvs) with
            | none => rfl
            | some w => exact absurd (hasPlace_of_get (by simp) hg) hno'
          simp [hnone, hno']
      · simp only [setCopy, hsrc]
        have hnone : get (.name k :: j :: ks) (.object ikvs) = none := by rw [get_cons, hst]; rfl
        have hno' : ¬ HasPlace (.object ikvs) (.name k :: j :: ks) := by
          intro h
          have := hasPlace_step (by simp) h
          rw [hst] at this; cases this
        simp [hnone, hno']

/-- what the loop comes to, for paths that are apart -/
theorem loop_refused (inputs old : List (String × EV)) : ∀ (opts bad : List Text) (s : IState), Sound s → s.old = .object old →
    (∀ p, IsPath opts p → Fresh (.object inputs) s p) → AllApart opts → ¬ IsPath opts [] →
    (∃ s', ignoreLoop opts bad s = .done s' ∧ bad = [] ∧ ∀ o ∈ opts, ¬ Unplaceable inputs old o) ∨
    (∃ bad', ignoreLoop opts bad s = .refused bad' ∧ bad' ≠ [] ∧ ∀ o, o ∈ bad' ↔ o ∈ bad ∨ (o ∈ opts ∧ Unplaceable inputs old o)) := by
  intro opts
  induction opts with
  | nil =>
    intro bad s _ _ _ _ _
    unfold ignoreLoop
    by_cases hb : bad = []
    · exact .inl ⟨s, by rw [if_pos hb], hb, by simp⟩
    · exact .inr ⟨bad, by rw [if_neg hb], hb, by simp⟩
  | cons o opts ih =>
    intro bad s hs hold hfr hap hne
    have hap' := (List.pairwise_cons.1 hap).2
    have hne' : ¬ IsPath opts [] := fun ⟨o', h1, h2⟩ => hne ⟨o', by simp [h1], h2⟩
    have hfr' : ∀ p, IsPath opts p → Fresh (.object inputs) s p := fun p ⟨o', h1, h2⟩ => hfr p ⟨o', by simp [h1], h2⟩
    unfold ignoreLoop
    -- `o` counts or not
    have glue : ∀ (s' : IState) (bad₁ : List Text), Sound s' → s'.old = .object old → (∀ p, IsPath opts p → Fresh (.object inputs) s' p) →
        ((bad₁ = bad ∧ ¬ Unplaceable inputs old o) ∨ (bad₁ = bad ++ [o] ∧ Unplaceable inputs old o)) →
        (∃ s'', ignoreLoop opts bad₁ s' = .done s'' ∧ bad = [] ∧ ∀ o' ∈ o :: opts, ¬ Unplaceable inputs old o') ∨
        (∃ bad', ignoreLoop opts bad₁ s' = .refused bad' ∧ bad' ≠ [] ∧
          ∀ o', o' ∈ bad' ↔ o' ∈ bad ∨ (o' ∈ o :: opts ∧ Unplaceable inputs old o')) := by
      intro s' bad₁ h1 h2 h3 h4
      rcases ih bad₁ s' h1 h2 h3 hap' hne' with ⟨s'', ha, hb, hc⟩ | ⟨bad', ha, hb, hc⟩
      · rcases h4 with ⟨rfl, hu⟩ | ⟨rfl, _⟩
        · refine .inl ⟨s'', ha, hb, ?_⟩
          intro o' ho'
          rcases List.mem_cons.1 ho' with rfl | ho'
          · exact hu
          · exact hc o' ho'
        · simp at hb
      · refine .inr ⟨bad', ha, hb, ?_⟩
        intro o'
        rw [hc o']
        rcases h4 with ⟨rfl, hu⟩ | ⟨rfl, hu⟩
        · constructor
          · rintro (h | ⟨h, h'⟩)
            · exact .inl h
            · exact .inr ⟨by simp [h], h'⟩
          · rintro (h | ⟨h, h'⟩)
            · exact .inl h
            · rcases List.mem_cons.1 h with rfl | h
              · exact absurd h' hu
              · exact .inr ⟨h, h'⟩
        · simp only [List.mem_append, List.mem_singleton]
          constructor
          · rintro ((h | rfl) | ⟨h, h'⟩)
            · exact .inl h
            · exact .inr ⟨by simp, hu⟩
            · exact .inr ⟨by simp [h], h'⟩
          · rintro (h | ⟨h, h'⟩)
            · exact .inl (.inl h)
            · rcases List.mem_cons.1 h with rfl | h
              · exact .inl (.inr rfl)
              · exact .inr ⟨h, h'⟩
    cases ho : parse o with
    | error e =>
      simp only
      exact glue s bad hs hold hfr' (.inl ⟨rfl, by rintro ⟨p, h, _⟩; rw [ho] at h; cases h⟩)
    | ok p =>
      simp only
      have hp : p ≠ [] := by rintro rfl; exact hne ⟨o, by simp, ho⟩
      have hb := bad_iff hs hp (hfr p ⟨o, by simp, ho⟩) ⟨inputs, rfl⟩
      rw [hold] at hb
      have hun : Unplaceable inputs old o ↔ (get p (.object old)).isSome = true ∧ get p (.object inputs) = none ∧ ¬ HasPlace (.object inputs) p := by
        unfold Unplaceable
        constructor
        · rintro ⟨p', h, h'⟩; rw [ho] at h; cases h; exact h'
        · intro h'; exact ⟨p, ho, h'⟩
      rw [← hun] at hb
      cases hi : ignoreOne s p with
      | crash => exact absurd ((ignoreOne_crash hs p).1 hi) hp
      | bad =>
        simp only
        exact glue s _ hs hold hfr' (.inr ⟨rfl, hb.1 hi⟩)
      | ok t =>
        simp only
        refine glue t bad (sound_ignoreOne hs hi) ((ignoreOne_old hi).trans hold) ?_ (.inl ⟨rfl, ?_⟩)
        · rintro q ⟨o', h1, h2⟩
          exact fresh_ignoreOne hi ((List.pairwise_cons.1 hap).1 o' h1 p q ho h2) (hfr q ⟨o', by simp [h1], h2⟩)
        · intro hu; rw [hb.2 hu] at hi; cases hi

/-- **Exactly which paths cannot be ignored**, when none is inside another: those that have an old value for which the new inputs
have no place, because what it was in is gone, is no longer an object or an array, or is an array that got too short. If there
are none, the update goes on; a path that neither has, or only the new inputs have, is never refused. -/
theorem refused_exactly (inputs old : List (String × EV)) (opts : List Text) (hap : AllApart opts) (hne : ¬ IsPath opts []) :
    ((∃ s, processIgnoreChanges inputs old opts = .done s) ↔ ∀ o ∈ opts, ¬ Unplaceable inputs old o) ∧
    ∀ bad, processIgnoreChanges inputs old opts = .refused bad → ∀ o, o ∈ bad ↔ o ∈ opts ∧ Unplaceable inputs old o := by
  have h := loop_refused inputs old opts [] (startCopy inputs old) (sound_start inputs old) rfl
    (fun p _ => fresh_start inputs old p) hap hne
  unfold processIgnoreChanges
  rcases h with ⟨s', h1, _, h2⟩ | ⟨bad', h1, h2, h3⟩
  · rw [h1]
    refine ⟨⟨fun _ => h2, fun _ => ⟨s', rfl⟩⟩, ?_⟩
    intro bad h; cases h
  · rw [h1]
    refine ⟨⟨(fun hx => (by obtain ⟨_, hx⟩ := hx; cases hx)), ?_⟩, ?_⟩
    · intro h
      exfalso
      cases bad' with
      | nil => exact h2 rfl
      | cons o bad' =>
        have := (h3 o).1 (by simp)
        rcases this with h' | ⟨h4, h5⟩
        · cases h'
        · exact h o h4 h5
    · intro bad h
      cases h
      intro o
      rw [h3 o]
      simp

example : AllApart ["tags.env".toList, "size".toList] ∧ ¬ IsPath ["tags.env".toList, "size".toList] [] := by
  have h1 : parse "tags.env".toList = .ok [.name "tags".toList, .name "env".toList] := by rfl
  have h2 : parse "size".toList = .ok [.name "size".toList] := by rfl
  constructor
  · unfold AllApart
    simp only [List.pairwise_cons, List.mem_singleton, forall_eq, List.not_mem_nil, false_implies, implies_true, List.Pairwise.nil, and_self, and_true]
    intro p q hp hq
    rw [h1] at hp; rw [h2] at hq
    cases hp; cases hq
    unfold Apart
    decide
  · rintro ⟨o, ho, hp⟩
    simp only [List.mem_cons, List.not_mem_nil, or_false] at ho
    rcases ho with rfl | rfl
    · rw [h1] at hp; cases hp
    · rw [h2] at hp; cases hp

/-- ignoring an element of an array fails the update once the array is shorter -/
theorem shorter_array_refused : processIgnoreChanges [("zones", .array [.str "a"])] [("zones", .array [.str "a", .str "b"])]
    ["zones[1]".toList] = .refused ["zones[1]".toList] := by rfl

/-- **The order matters when one path is inside another**: with the inner one first it works, with the outer one first it is
refused. -/
theorem order_matters : let new : List (String × EV) := [("tags", .object [("env", .str "new")])]
    (∃ s, processIgnoreChanges new [] ["tags.env".toList, "tags".toList] = .done s) ∧
    processIgnoreChanges new [] ["tags".toList, "tags.env".toList] = .refused ["tags.env".toList] := ⟨⟨_, rfl⟩, rfl⟩

/-- **A wildcard is taken for a name, and a text that is not a path is passed over**: nothing is ignored, and nothing is said. -/
theorem wildcard_ignores_nothing : ∃ s, processIgnoreChanges newIn oldIn ["tags.*".toList, "*".toList, "tags[\"env".toList] = .done s ∧
    copyGet s [.name "tags".toList] = some (.object [("env", .str "new"), ("team", .str "y")]) ∧
    copyGet s [.name "size".toList] = some (.num 2) := ⟨_, rfl, rfl, rfl⟩

/-- **Nor is anything inside a secret ignored**, and nothing is said -/
theorem inside_secret_not_ignored : ∃ s, processIgnoreChanges [("db", .secret (.object [("pw", .str "new")]))]
    [("db", .secret (.object [("pw", .str "old")]))] ["db.pw".toList] = .done s ∧
    copyGet s [.name "db".toList] = some (.secret (.object [("pw", .str "new")])) := ⟨_, rfl, rfl⟩

/-! ## what a replacement sees -/

/-- What is apart from the ignored paths of two keys or more is what the program said in the inputs themselves too, so **a
property ignored as a whole is not ignored when the resource is replaced** (step_generator.go:785). -/
theorem goal_unchanged (inputs old : List (String × EV)) (opts : List Text) (s : IState)
    (h : processIgnoreChanges inputs old opts = .done s) (q : Path) (hap : ∀ p, IsPath opts p → 2 ≤ p.length → Apart p q) :
    get q s.own = get q (.object inputs) := by
  refine loop_inv (fun u => get q u.own = get q (.object inputs)) opts (startCopy inputs old) ?_ rfl s h
  intro a b p hp ha hr
  have aux : ∀ f, Local f → Changed f a p b → get q b.own = get q (.object inputs) := by
    intro f hf hc
    cases hc with
    | top k c _ hs _ => rw [hs]; exact ha
    | own k ks t hpk hks _ ht hs =>
      rw [hs]
      refine (change_apart hf p q a.own t ht (hap p hp ?_)).trans ha
      rw [hpk]
      cases ks with
      | nil => exact absurd rfl hks
      | cons _ _ => simp
    | old k ks t _ _ _ _ hs => rw [hs]; exact ha
  rcases ignoreOne_cases hr with ⟨v, _, hc⟩ | ⟨_, _, hc⟩ | ⟨_, _, rfl⟩
  · exact aux _ (local_put v) (set_changed hc)
  · exact aux _ local_drop (delete_changed hc)
  · exact ha

/-- handling a path of two keys or more changes the inputs themselves -/
theorem own_kept_one {inputs : EV} {s s' : IState} {p : Path} (hfr : Fresh inputs s p) (h : ignoreOne s p = .ok s') (hp : 2 ≤ p.length) :
    Kept p s.old (get p s'.own) := by
  unfold Kept
  rcases ignoreOne_cases h with ⟨v, hv, hc⟩ | ⟨hv, _, hc⟩ | ⟨hv, hn, rfl⟩
  · rw [hv]
    cases set_changed hc with
    | top k c hpk _ _ => rw [hpk] at hp; simp at hp
    | own k ks t _ _ _ ht hs => rw [hs]; exact set_get (p := p) (v := v) ht
    | old k ks t hpk hks hsrc _ _ =>
      rcases hfr.src k ks hpk hks with ⟨h1, _⟩ | ⟨h1, _⟩
      · rw [h1] at hsrc; cases hsrc
      · rw [h1] at hsrc; cases hsrc
  · rw [hv]
    cases delete_changed hc with
    | top k c hpk _ _ => rw [hpk] at hp; simp at hp
    | own k ks t _ _ _ ht hs => rw [hs]; exact delete_get (p := p) ht
    | old k ks t hpk hks hsrc _ _ =>
      rcases hfr.src k ks hpk hks with ⟨h1, _⟩ | ⟨h1, _⟩
      · rw [h1] at hsrc; cases hsrc
      · rw [h1] at hsrc; cases hsrc
  · rw [hv]; exact .inl hn

theorem loop_own (inputs : EV) : ∀ (opts : List Text) (s s' : IState), (∀ p, IsPath opts p → Fresh inputs s p) → AllApart opts →
    ignoreLoop opts [] s = .done s' → ∀ p, IsPath opts p → 2 ≤ p.length → Kept p s.old (get p s'.own) := by
  intro opts
  induction opts with
  | nil => intro s s' _ _ _ p ⟨o, ho, _⟩; cases ho
  | cons o opts ih =>
    intro s s' hfr hap h p hp hlen
    have hap' := (List.pairwise_cons.1 hap).2
    unfold ignoreLoop at h
    cases ho : parse o with
    | error e =>
      rw [ho] at h
      apply ih s s' (fun p ⟨o', h1, h2⟩ => hfr p ⟨o', by simp [h1], h2⟩) hap' h p ?_ hlen
      obtain ⟨o', ho', hp'⟩ := hp
      rcases List.mem_cons.1 ho' with rfl | hm
      · rw [ho] at hp'; cases hp'
      · exact ⟨o', hm, hp'⟩
    | ok q =>
      rw [ho] at h; simp only at h
      cases hi : ignoreOne s q with
      | crash => rw [hi] at h; cases h
      | bad => rw [hi] at h; exact absurd h (loop_bad _ _ _ (by simp) s')
      | ok t =>
        rw [hi] at h; simp only at h
        have hold := ignoreOne_old hi
        obtain ⟨o', ho', hp'⟩ := hp
        rcases List.mem_cons.1 ho' with rfl | hm
        · rw [ho] at hp'; injection hp' with hp'; subst hp'
          have hk := own_kept_one (hfr q ⟨o', by simp, ho⟩) hi hlen
          refine loop_inv (fun u => Kept q s.old (get q u.own)) opts t ?_ hk s' h
          rintro a b r ⟨o2, ho2, hr⟩ ha hab
          have hapr : Apart r q := by
            have := (List.pairwise_cons.1 hap).1 o2 ho2 q r ho hr
            exact ⟨this.2, this.1⟩
          have aux : ∀ f, Local f → Changed f a r b → Kept q s.old (get q b.own) := by
            intro f hf hc
            cases hc with
            | top k c _ hs _ => rw [hs]; exact ha
            | own k ks u _ _ _ ht hs => rw [hs]; simp only; rw [change_apart hf r q a.own u ht hapr]; exact ha
            | old k ks u _ _ _ _ hs => rw [hs]; exact ha
          rcases ignoreOne_cases hab with ⟨v, _, hc⟩ | ⟨_, _, hc⟩ | ⟨_, _, rfl⟩
          · exact aux _ (local_put v) (set_changed hc)
          · exact aux _ local_drop (delete_changed hc)
          · exact ha
        · rw [← hold]
          refine ih t s' ?_ hap' h p ⟨o', hm, hp'⟩ hlen
          rintro q' ⟨o2, h1, h2⟩
          exact fresh_ignoreOne hi ((List.pairwise_cons.1 hap).1 o2 h1 q q' ho h2) (hfr q' ⟨o2, by simp [h1], h2⟩)

/-- **But an ignored path of two keys or more is changed in the inputs themselves**, because the copy is shallow: there the old
value is kept even when the resource is replaced. -/
theorem goal_overwritten (inputs old : List (String × EV)) (opts : List Text) (s : IState) (hap : AllApart opts)
    (h : processIgnoreChanges inputs old opts = .done s) (p : Path) (hp : IsPath opts p) (hlen : 2 ≤ p.length) :
    Kept p (.object old) (get p s.own) :=
  loop_own (.object inputs) opts (startCopy inputs old) s (fun p _ => fresh_start inputs old p) hap h p hp hlen

/-- so a replacement gets the new tags if `tags` is ignored, and the old `env` if `tags.env` is -/
theorem replacement_differs :
    (∃ s, processIgnoreChanges newIn oldIn ["tags".toList] = .done s ∧
      get [.name "tags".toList, .name "env".toList] s.own = some (.str "new")) ∧
    (∃ s, processIgnoreChanges newIn oldIn ["tags.env".toList] = .done s ∧
      get [.name "tags".toList, .name "env".toList] s.own = some (.str "old")) := ⟨⟨_, rfl, rfl⟩, ⟨_, rfl, rfl⟩⟩

end Pulumi.Paths
