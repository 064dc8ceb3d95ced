import Verif.Policy.Config
/-
What is read from a policy pack's configuration file and from the service.

Code: pkg/resource/analyzer/config.go:40-143.
-/
namespace Pulumi.Policy

/-- The three levels -/
def IsLevel (s : String) : Prop := s = "advisory" ∨ s = "mandatory" ∨ s = "disabled"

/-- An object whose `enforcementLevel`, if it has one, is one of the three levels -/
def GoodObject (fs : Map Val) : Prop := ∀ v, get fs "enforcementLevel" = some v → ∃ s, v = .str s ∧ IsLevel s

/-- What may stand under a policy's name in a file: a level, or such an object -/
inductive GoodFileValue : Val → Prop where
  | level (s : String) : IsLevel s → GoodFileValue (.str s)
  | object (fs : Map Val) : GoodObject fs → GoodFileValue (.obj fs)

/-- The level written in an object; none is the empty text -/
def levelIn (fs : Map Val) : String :=
  match get fs "enforcementLevel" with
  | some (.str s) => s
  | _ => ""

/-! ## One entry -/

theorem extract_good (fs : Map Val) (h : GoodObject fs) :
    ∃ ps, extract fs = some (levelIn fs, ps) ∧ (∀ k, get ps k = if k = "enforcementLevel" then none else get fs k) := by
  unfold extract levelIn
  cases hg : get fs "enforcementLevel" with
  | none =>
    refine ⟨fs, rfl, ?_⟩
    intro k
    by_cases hk : k = "enforcementLevel"
    · rw [hk, hg, if_pos rfl]
    · rw [if_neg hk]
  | some v =>
    obtain ⟨s, hv, hs⟩ := h v hg
    subst hv
    have : valid s = true := (valid_iff s).mpr hs
    simp only [this, if_true]
    refine ⟨_, rfl, ?_⟩
    intro k
    rw [get_del]
    by_cases hk : k = "enforcementLevel"
    · simp [hk]
    · rw [if_neg hk, if_neg (fun hh => hk hh.symm)]

theorem extract_bad (fs : Map Val) (h : ¬ GoodObject fs) : extract fs = none := by
  unfold extract
  cases hg : get fs "enforcementLevel" with
  | none => exact absurd (fun v hv => by rw [hg] at hv; cases hv) h
  | some v =>
    cases v with
    | str s =>
      simp only
      split
      · rename_i hv
        refine absurd (fun v' hv' => ?_) h
        rw [hg] at hv'
        cases hv'
        exact ⟨s, rfl, (valid_iff s).mp hv⟩
      · rfl
    | obj _ => rfl
    | null => rfl
    | other _ => rfl

theorem get_addEntry (acc : Map Conf) (k l : String) (ps : Map Val) (k' : String) :
    get (addEntry acc k l ps) k' =
      if k = k' ∧ ¬ (l = "" ∧ ps = []) then some { level := l, props := ps } else get acc k' := by
  unfold addEntry
  by_cases h : l = "" ∧ ps = []
  · have : (l == "" && ps.isEmpty) = true := by simp [h.1, h.2]
    simp [h]
  · have : (l == "" && ps.isEmpty) = false := by
      simp only [Bool.and_eq_false_iff, beq_eq_false_iff_ne]
      by_cases hl : l = ""
      · exact Or.inr (by simpa using fun hp => h ⟨hl, hp⟩)
      · exact Or.inl hl
    simp only [this, Bool.false_eq_true, if_false, get_put, h, not_false_eq_true, and_true]

/-! ## The file -/

/-- What is read from a value: the level and the properties; nothing from an empty object -/
def read : Val → Option Conf
  | .str s => some { level := s, props := [] }
  | .obj fs => match extract fs with
    | some (l, ps) => if l = "" ∧ ps = [] then none else some { level := l, props := ps }
    | none => none
  | _ => none

theorem levelNe (s : String) (h : IsLevel s) : s ≠ "" := by
  rcases h with h | h | h <;> subst h <;> decide

theorem fileEntry_good (acc : Map Conf) (k : String) (v : Val) (h : GoodFileValue v) :
    ∃ acc', fileEntry acc k v = .ok acc' ∧ ∀ k', get acc' k' = if k = k' then (read v).or (get acc k') else get acc k' := by
  cases h with
  | level s hs =>
    unfold fileEntry
    simp only [(valid_iff s).mpr hs, if_true]
    refine ⟨_, rfl, ?_⟩
    intro k'
    rw [get_addEntry]
    by_cases hk : k = k' <;> simp [hk, levelNe s hs, read]
  | object fs hf =>
    obtain ⟨ps, he, _⟩ := extract_good fs hf
    unfold fileEntry
    simp only [he]
    refine ⟨_, rfl, ?_⟩
    intro k'
    rw [get_addEntry]
    by_cases hk : k = k'
    · by_cases hz : levelIn fs = "" ∧ ps = [] <;> simp [hk, hz, read, he]
    · simp [hk]

theorem fileEntry_bad (acc : Map Conf) (k : String) (v : Val) (h : ¬ GoodFileValue v) : ∃ e, fileEntry acc k v = .error e := by
  cases v with
  | str s =>
    unfold fileEntry
    by_cases hv : valid s = true
    · exact absurd (GoodFileValue.level s ((valid_iff s).mp hv)) h
    · simp only [hv]
      exact ⟨_, rfl⟩
  | obj fs =>
    have : ¬ GoodObject fs := fun hh => h (.object fs hh)
    unfold fileEntry
    simp only [extract_bad fs this]
    exact ⟨_, rfl⟩
  | null => exact ⟨_, rfl⟩
  | other n => exact ⟨_, rfl⟩

theorem fileLoop_good (m : Map Val) (acc : Map Conf) (hd : Distinct m) (h : ∀ e ∈ m, GoodFileValue e.2) :
    ∃ r, fileLoop m acc = .ok r ∧ ∀ k, get r k = ((get m k).bind read).or (get acc k) := by
  induction m generalizing acc with
  | nil => exact ⟨acc, rfl, by intro k; simp [get_nil]⟩
  | cons e m ih =>
    obtain ⟨a, v⟩ := e
    unfold Distinct at hd
    simp only [List.map_cons, List.nodup_cons] at hd
    obtain ⟨acc', he, hg⟩ := fileEntry_good acc a v (h _ List.mem_cons_self)
    obtain ⟨r, hr, hrg⟩ := ih acc' hd.2 (fun e he => h e (List.mem_cons_of_mem _ he))
    unfold fileLoop
    simp only [he]
    refine ⟨r, hr, ?_⟩
    intro k
    rw [hrg, hg, get_cons]
    by_cases hk : a = k
    · subst hk
      rw [get_none_of_notMem m a hd.1]
      simp
    · simp [hk]

theorem fileLoop_bad (m : Map Val) (acc : Map Conf) (h : ∃ e ∈ m, ¬ GoodFileValue e.2) : ∃ e, fileLoop m acc = .error e := by
  induction m generalizing acc with
  | nil => obtain ⟨e, he, _⟩ := h; cases he
  | cons e m ih =>
    obtain ⟨a, v⟩ := e
    unfold fileLoop
    by_cases hv : GoodFileValue v
    · obtain ⟨acc', he, _⟩ := fileEntry_good acc a v hv
      simp only [he]
      refine ih acc' ?_
      obtain ⟨e, he, hb⟩ := h
      rcases List.mem_cons.mp he with hh | hh
      · subst hh; exact absurd hv hb
      · exact ⟨e, hh, hb⟩
    · obtain ⟨er, he⟩ := fileEntry_bad acc a v hv
      simp only [he]
      exact ⟨er, rfl⟩

/-- A file is accepted exactly where it is blank, or holds `null`, or an object in which each policy has a level or an object
whose `enforcementLevel`, if any, is a level; in whatever order its entries are visited. -/
theorem file_accepted_iff (f : Option Val) (hd : ∀ m, f = some (.obj m) → Distinct m) :
    (∃ r, parseFile f = .ok r) ↔
      f = none ∨ f = some .null ∨ ∃ m, f = some (.obj m) ∧ ∀ e ∈ m, GoodFileValue e.2 := by
  cases f with
  | none => simp [parseFile]
  | some v =>
    cases v with
    | obj m =>
      simp only [parseFile, reduceCtorEq, Option.some.injEq, Val.obj.injEq, exists_eq_left', false_or]
      constructor
      · rintro ⟨r, h⟩ e he
        refine Classical.byContradiction fun hb => ?_
        obtain ⟨er, h'⟩ := fileLoop_bad m [] ⟨e, he, hb⟩
        rw [h'] at h
        cases h
      · intro h
        obtain ⟨r, hr, _⟩ := fileLoop_good m [] (hd m rfl) h
        exact ⟨r, hr⟩
    | str s => simp [parseFile]
    | null => simp [parseFile]
    | other n => simp [parseFile]

/-- What is read from a file that is accepted: of a policy with a level, the level; of a policy with an object, the object's
level and all its other properties, unless the object is empty; of anything else nothing. -/
theorem file_read (m : Map Val) (hd : Distinct m) (r : Map Conf) (h : parseFile (some (.obj m)) = .ok r) (k : String) :
    (get m k = none → get r k = none) ∧
    (∀ s, get m k = some (.str s) → get r k = some { level := s, props := [] }) ∧
    (get m k = some (.obj []) → get r k = none) ∧
    (∀ fs, get m k = some (.obj fs) → fs ≠ [] →
      ∃ c, get r k = some c ∧ c.level = levelIn fs ∧
        ∀ key, get c.props key = if key = "enforcementLevel" then none else get fs key) := by
  have hgood : ∀ e ∈ m, GoodFileValue e.2 := by
    have := (file_accepted_iff (some (.obj m)) (by intro m' hm; cases hm; exact hd)).mp ⟨r, h⟩
    rcases this with hh | hh | ⟨m', hm, hg⟩
    · cases hh
    · cases hh
    · cases hm; exact hg
  obtain ⟨r', hr, hg⟩ := fileLoop_good m [] hd hgood
  change fileLoop m [] = .ok r at h
  rw [hr] at h
  cases h
  have mem : ∀ v, get m k = some v → GoodFileValue v := by
    intro v hv
    unfold get at hv
    simp only [Option.map_eq_some_iff] at hv
    obtain ⟨e, he, hev⟩ := hv
    rw [← hev]
    exact hgood e (List.mem_of_find?_eq_some he)
  have hz : ∀ fs ps, extract fs = some ("", ps) → ps = [] → fs = [] := by
    intro fs ps he hp
    unfold extract at he
    cases hx : get fs "enforcementLevel" with
    | none =>
      rw [hx] at he
      simp only [Option.some.injEq, Prod.mk.injEq, true_and] at he
      rw [he, hp]
    | some v =>
      rw [hx] at he
      cases v with
      | str s =>
        simp only at he
        split at he
        · rename_i hv
          simp only [Option.some.injEq, Prod.mk.injEq] at he
          exact absurd he.1 (levelNe s ((valid_iff s).mp hv))
        · cases he
      | obj _ => cases he
      | null => cases he
      | other _ => cases he
  refine ⟨?_, ?_, ?_, ?_⟩
  · intro hn
    rw [hg, hn]
    rfl
  · intro s hs
    rw [hg, hs]
    rfl
  · intro hs
    rw [hg, hs]
    rfl
  · intro fs hs hne
    cases mem _ hs with
    | object _ hf =>
      obtain ⟨ps, he, hp⟩ := extract_good fs hf
      have : ¬ (levelIn fs = "" ∧ ps = []) := by
        rintro ⟨hl, hps⟩
        rw [hl] at he
        exact hne (hz fs ps he hps)
      refine ⟨{ level := levelIn fs, props := ps }, ?_, rfl, hp⟩
      rw [hg, hs]
      simp [read, he, this]

/-- Whatever is read from a file has one of the three levels, or none. -/
theorem file_levels (m : Map Val) (hd : Distinct m) (r : Map Conf) (h : parseFile (some (.obj m)) = .ok r)
    (k : String) (c : Conf) (hc : get r k = some c) : IsLevel c.level ∨ c.level = "" := by
  obtain ⟨h₁, h₂, h₃, h₄⟩ := file_read m hd r h k
  have hgood : ∀ v, get m k = some v → GoodFileValue v := by
    have := (file_accepted_iff (some (.obj m)) (by intro m' hm; cases hm; exact hd)).mp ⟨r, h⟩
    rcases this with hh | hh | ⟨m', hm, hg⟩
    · cases hh
    · cases hh
    · cases hm
      intro v hv
      unfold get at hv
      simp only [Option.map_eq_some_iff] at hv
      obtain ⟨e, he, hev⟩ := hv
      rw [← hev]
      exact hg e (List.mem_of_find?_eq_some he)
  cases hm : get m k with
  | none => rw [h₁ hm] at hc; cases hc
  | some v =>
    cases hgood v hm with
    | level s hs =>
      rw [h₂ s hm] at hc
      cases hc
      exact Or.inl hs
    | object fs hf =>
      by_cases hne : fs = []
      · subst hne
        rw [h₃ hm] at hc
        cases hc
      · obtain ⟨c', hc', hl, _⟩ := h₄ fs hm hne
        rw [hc'] at hc
        cases hc
        rw [hl]
        unfold levelIn
        cases hx : get fs "enforcementLevel" with
        | none => exact Or.inr rfl
        | some v =>
          obtain ⟨s, hv, hs⟩ := hf v hx
          subst hv
          exact Or.inl hs

def file : Map Val :=
  [("all", .str "mandatory"), ("tags", .obj [("enforcementLevel", .str "disabled"), ("x", .other 1)]), ("none", .obj [])]

example : Distinct file ∧ ∃ r, parseFile (some (.obj file)) = .ok r ∧ (get r "tags").map (·.level) = some "disabled" ∧
    (get r "none").isSome = false :=
  ⟨by unfold Distinct; decide, _, rfl, by decide +kernel, by decide +kernel⟩

example : parseFile (some (.obj [("tags", .obj [("enforcementLevel", .str "loud")])])) = .error (.level "tags") := rfl

/-! ## The service -/

/-- What the service may send for a policy: nothing, or an object as above -/
inductive GoodApiValue : Option Val → Prop where
  | nothing : GoodApiValue none
  | object (fs : Map Val) : GoodObject fs → GoodApiValue (some (.obj fs))

theorem apiEntry_good (acc : Map Conf) (k : String) (v : Option Val) (h : GoodApiValue v) :
    ∃ acc', apiEntry acc k v = .ok acc' ∧ ∀ k', get acc' k' = if k = k' then (v.bind read).or (get acc k') else get acc k' := by
  cases h with
  | nothing => exact ⟨acc, rfl, by intro k'; simp⟩
  | object fs hf =>
    obtain ⟨acc', he, hg⟩ := fileEntry_good acc k (.obj fs) (.object fs hf)
    refine ⟨acc', ?_, hg⟩
    exact he

theorem apiEntry_bad (acc : Map Conf) (k : String) (v : Option Val) (h : ¬ GoodApiValue v) :
    ∃ e, apiEntry acc k v = .error e := by
  cases v with
  | none => exact absurd .nothing h
  | some v =>
    cases v with
    | obj fs =>
      have : ¬ GoodObject fs := fun hh => h (.object fs hh)
      unfold apiEntry
      simp only [extract_bad fs this]
      exact ⟨_, rfl⟩
    | str s => exact ⟨_, rfl⟩
    | null => exact ⟨_, rfl⟩
    | other n => exact ⟨_, rfl⟩

theorem apiLoop_good (m : Map (Option Val)) (acc : Map Conf) (hd : Distinct m) (h : ∀ e ∈ m, GoodApiValue e.2) :
    ∃ r, apiLoop m acc = .ok r ∧ ∀ k, get r k = ((get m k).bind (fun v => v.bind read)).or (get acc k) := by
  induction m generalizing acc with
  | nil => exact ⟨acc, rfl, by intro k; simp [get_nil]⟩
  | cons e m ih =>
    obtain ⟨a, v⟩ := e
    unfold Distinct at hd
    simp only [List.map_cons, List.nodup_cons] at hd
    obtain ⟨acc', he, hg⟩ := apiEntry_good acc a v (h _ List.mem_cons_self)
    obtain ⟨r, hr, hrg⟩ := ih acc' hd.2 (fun e he => h e (List.mem_cons_of_mem _ he))
    unfold apiLoop
    simp only [he]
    refine ⟨r, hr, ?_⟩
    intro k
    rw [hrg, hg, get_cons]
    by_cases hk : a = k
    · subst hk
      rw [get_none_of_notMem m a hd.1]
      simp
    · simp [hk]

theorem apiLoop_bad (m : Map (Option Val)) (acc : Map Conf) (h : ∃ e ∈ m, ¬ GoodApiValue e.2) :
    ∃ e, apiLoop m acc = .error e := by
  induction m generalizing acc with
  | nil => obtain ⟨e, he, _⟩ := h; cases he
  | cons e m ih =>
    obtain ⟨a, v⟩ := e
    unfold apiLoop
    by_cases hv : GoodApiValue v
    · obtain ⟨acc', he, _⟩ := apiEntry_good acc a v hv
      simp only [he]
      refine ih acc' ?_
      obtain ⟨e, he, hb⟩ := h
      rcases List.mem_cons.mp he with hh | hh
      · subst hh; exact absurd hv hb
      · exact ⟨e, hh, hb⟩
    · obtain ⟨er, he⟩ := apiEntry_bad acc a v hv
      simp only [he]
      exact ⟨er, rfl⟩

/-- The configuration of the service is accepted exactly where each entry is missing or an object whose `enforcementLevel`,
if any, is a level. -/
theorem api_accepted_iff (m : Map (Option Val)) (hd : Distinct m) :
    (∃ r, parseApi m = .ok r) ↔ ∀ e ∈ m, GoodApiValue e.2 := by
  unfold parseApi
  constructor
  · rintro ⟨r, h⟩ e he
    refine Classical.byContradiction fun hb => ?_
    obtain ⟨er, h'⟩ := apiLoop_bad m [] ⟨e, he, hb⟩
    rw [h'] at h
    cases h
  · intro h
    obtain ⟨r, hr, _⟩ := apiLoop_good m [] hd h
    exact ⟨r, hr⟩

/-- Objects mean the same whether they are read from a file or come from the service. -/
theorem api_and_file_agree (m : Map (Map Val)) (hd : Distinct m) (r r' : Map Conf)
    (h : parseFile (some (.obj (m.map (fun e => (e.1, .obj e.2))))) = .ok r)
    (h' : parseApi (m.map (fun e => (e.1, some (.obj e.2)))) = .ok r') (k : String) : get r k = get r' k := by
  have d₁ : Distinct (m.map (fun e => (e.1, Val.obj e.2))) := by
    unfold Distinct at hd ⊢
    rw [List.map_map]
    exact hd
  have d₂ : Distinct (m.map (fun e => (e.1, some (Val.obj e.2)))) := by
    unfold Distinct at hd ⊢
    rw [List.map_map]
    exact hd
  have g₂ := (api_accepted_iff _ d₂).mp ⟨r', h'⟩
  have g₁ : ∀ e ∈ m.map (fun e => (e.1, Val.obj e.2)), GoodFileValue e.2 := by
    intro e he
    obtain ⟨x, hx, hxe⟩ := List.mem_map.mp he
    rw [← hxe]
    cases g₂ (x.1, some (.obj x.2)) (List.mem_map.mpr ⟨x, hx, rfl⟩) with
    | object _ hf => exact .object _ hf
  obtain ⟨q, hq, hqg⟩ := fileLoop_good _ [] d₁ g₁
  obtain ⟨q', hq', hqg'⟩ := apiLoop_good _ [] d₂ g₂
  change fileLoop _ [] = .ok r at h
  unfold parseApi at h'
  rw [hq] at h
  rw [hq'] at h'
  cases h
  cases h'
  rw [hqg, hqg', get_map_val m Val.obj, get_map_val m (fun x => some (Val.obj x))]
  cases get m k <;> rfl

example : ∃ r r', parseFile (some (.obj ([("tags", [("x", Val.other 1)])].map (fun e => (e.1, .obj e.2))))) = .ok r ∧
    parseApi ([("tags", [("x", Val.other 1)])].map (fun e => (e.1, some (.obj e.2)))) = .ok r' ∧
    (get r "tags").isSome = true := ⟨_, _, rfl, rfl, by decide +kernel⟩

/-- A level by itself, which a file may have, is refused where it comes from the service. -/
theorem bare_level_is_refused_from_the_service :
    (∃ r, parseFile (some (.obj [("tags", .str "mandatory")])) = .ok r) ∧
    parseApi [("tags", some (.str "mandatory"))] = .error .json := ⟨⟨_, rfl⟩, rfl⟩

end Pulumi.Policy
