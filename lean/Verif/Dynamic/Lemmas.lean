import Verif.Wire.Theorems
import Verif.Dynamic.Spec

/-! # Lemmas on dynamic providers -/

namespace Pulumi.Dynamic

open Pulumi.Wire (PV W Env setKey UserKey Visible)

theorem bind_ok {α β : Type} {x : Except Err α} {f : α → Except Err β} {b : β} :
    (x >>= f) = .ok b ↔ ∃ a, x = .ok a ∧ f a = .ok b := by
  cases x with
  | error e => simp [bind, Except.bind]
  | ok a => simp [bind, Except.bind]

theorem ok_bind {α β : Type} {x : Except Err α} {f : α → Except Err β} {a : α} (h : x = .ok a) : (x >>= f) = f a := by
  subst h; rfl

theorem visible_provider : Visible "__provider" := fun _ => rfl

theorem provider_ne_sig : "__provider" ≠ Wire.sigKey := by decide

theorem userKey_provider : UserKey "__provider" := ⟨provider_ne_sig, visible_provider⟩

/-! ## Keys -/

theorem setKey_keys {α : Type} (l : List (String × α)) (k : String) (v : α) :
    (setKey l k v).map (·.1) = if k ∈ l.map (·.1) then l.map (·.1) else l.map (·.1) ++ [k] := by
  induction l with
  | nil => simp [setKey]
  | cons p l ih =>
    obtain ⟨k', v'⟩ := p
    unfold setKey
    by_cases h : k' = k
    · subst h; simp
    · rw [if_neg h]
      simp only [List.map_cons, ih, List.mem_cons]
      have : ¬ k = k' := fun e => h e.symm
      by_cases hm : k ∈ l.map (·.1)
      · simp [hm]
      · simp [hm, this]

theorem setKey_nodup {α : Type} {l : List (String × α)} (h : (l.map (·.1)).Nodup) (k : String) (v : α) :
    ((setKey l k v).map (·.1)).Nodup := by
  rw [setKey_keys]
  split
  · exact h
  · rename_i hm
    rw [List.nodup_append]
    refine ⟨h, by simp, ?_⟩
    intro a ha b hb
    simp at hb
    subst hb
    intro e
    subst e
    exact hm ha

theorem setKey_self_id {α : Type} {l : List (String × α)} {k : String} {v : α} (h : l.lookup k = some v) :
    setKey l k v = l := by
  induction l with
  | nil => simp at h
  | cons p l ih =>
    obtain ⟨k', v'⟩ := p
    unfold setKey
    by_cases hk : k' = k
    · subst hk
      simp [List.lookup] at h
      subst h
      simp
    · rw [if_neg hk]
      have hb : (k == k') = false := by simpa using fun e => hk e.symm
      simp only [List.lookup, hb] at h
      rw [ih h]

theorem fields_nodup {env : Env} {keep : Bool} {acc : Wire.Props} {kvs : Dict} {P : Wire.Props}
    (h : Wire.serProps env none keep acc kvs = .ok P) (ha : (acc.fields.map (·.1)).Nodup) :
    (P.fields.map (·.1)).Nodup := by
  induction kvs generalizing acc with
  | nil => cases h; exact ha
  | cons kv kvs ih =>
    obtain ⟨k, x⟩ := kv
    obtain ⟨v, d, _, h⟩ := Wire.serProps_cons_ok h
    rcases h with ⟨_, h⟩ | ⟨_, w, _, h⟩
    · exact ih h ha
    · exact ih h (setKey_nodup ha _ _)

theorem plugin_topKey (env : Env) (k : String) : (plugin env).topKey none k = k := rfl

theorem plugin_keeps (env : Env) : ∀ k, (plugin env).translate k = k := fun _ => rfl

theorem writeProps_ok {env : Env} {d : Dict} {s : Struct} (h : writeProps env d = .ok s) :
    ∃ P, Wire.serializeProperties (plugin env) none false d = .ok P ∧ P.fields = s := by
  unfold writeProps at h
  split at h
  · cases h
  · rename_i P hP
    cases h
    exact ⟨P, hP, rfl⟩

/-- What is written after stamping with a string carries it. -/
theorem written_carries {env : Env} {o : Dict} {c : String} {s : Struct} (ho : GoodOuts o)
    (h : writeProps env (setKey o providerKey (.str c)) = .ok s) : Carries s c := by
  obtain ⟨P, hP, rfl⟩ := writeProps_ok h
  have hn : ((setKey o providerKey (PV.str c)).map (·.1)).Nodup := setKey_nodup ho.1 _ _
  refine ⟨fields_nodup hP (by simp), ?_, ?_⟩
  · have := (Wire.serProps_untouched hP (k := Wire.sigKey) (by
      intro kv hkv
      rw [plugin_topKey]
      intro e
      have hm : Wire.sigKey ∈ (setKey o providerKey (PV.str c)).map (·.1) := List.mem_map.2 ⟨kv, hkv, e⟩
      rw [setKey_keys] at hm
      split at hm
      · exact ho.2 hm
      · rcases List.mem_append.1 hm with hm | hm
        · exact ho.2 hm
        · simp at hm
          exact provider_ne_sig hm.symm)).2
    rw [this]; rfl
  · have hm : (providerKey, PV.str c) ∈ setKey o providerKey (PV.str c) :=
      Wire.lookup_mem (Wire.setKey_lookup_self o providerKey (PV.str c))
    obtain ⟨v, d, hv, hc⟩ := Wire.serProps_entry hP (by simpa [plugin_topKey] using hn) hm
    have hv' : v = .str c := by
      simp only [Wire.ser] at hv
      cases hv
      rfl
    subst hv'
    obtain ⟨_, w, hw, hl⟩ := hc (by simp)
    simp only [Wire.toWire] at hw
    cases hw
    exact hl

/-! ## Reading properties -/

theorem readProps_ok {env : Env} {keep : Bool} {s : Struct} {d : Dict} (h : readProps env keep s = .ok d) :
    Wire.deserializeProperties (plugin env) keep false s = .ok (.dict d) := by
  unfold readProps at h
  split at h
  · cases h
  · rename_i hd; cases h; exact hd
  · cases h

/-- The provider entry of what is read. -/
theorem read_code {env : Env} {keep : Bool} {s : Struct} {c : String} {d : Dict} (hs : Carries s c)
    (h : readProps env keep s = .ok d) :
    (d.lookup "__provider").getD .none = Wire.desStr false keep c := by
  cases Wire.structCase (readProps_ok h) with
  | ordinary _ hc hv =>
    cases hv
    obtain ⟨v, hd, hl⟩ := Wire.collect_lookup hc hs.distinct hs.code (.inr visible_provider)
    rw [hl]
    simp only [Wire.des, plugin] at hd
    cases hd
    rfl
  | asset h => rw [hs.ordinary] at h; cases h
  | archive h => rw [hs.ordinary] at h; cases h
  | secret h => rw [hs.ordinary] at h; cases h
  | reference h => rw [hs.ordinary] at h; cases h
  | output h => rw [hs.ordinary] at h; cases h

theorem read_code_known {env : Env} {keep : Bool} {s : Struct} {c : String} {d : Dict} (hs : Carries s c)
    (hc : c ≠ Wire.UNKNOWN) (h : readProps env keep s = .ok d) : d.lookup providerKey = some (.str c) := by
  have := read_code hs h
  rw [Wire.desStr_keep hc] at this
  show d.lookup "__provider" = _
  cases hl : d.lookup "__provider" with
  | none => rw [hl] at this; cases this
  | some v => rw [hl] at this; exact congrArg some this

theorem getProvider_ok {load : String → Option Provider} {d : Dict} {p : Provider}
    (h : getProvider load d = .ok p) : ∃ c, d.lookup providerKey = some (.str c) ∧ load c = some p := by
  obtain ⟨v, hv, h⟩ := bind_ok.1 h
  unfold item at hv
  split at hv
  · rename_i v' hl
    cases hv
    unfold loadValue at h
    split at h
    · rename_i s
      split at h
      · rename_i p' hp
        cases h
        exact ⟨s, hl, hp⟩
      · cases h
    · cases h
  · cases hv

theorem getProvider_of {load : String → Option Provider} {d : Dict} {c : String} {p : Provider}
    (h : d.lookup providerKey = some (.str c)) (hp : load c = some p) : getProvider load d = .ok p := by
  unfold getProvider item
  rw [h]
  show loadValue load (.str c) = _
  unfold loadValue
  simp only [hp]

/-- The provider that a request without unknowns runs. -/
theorem code_of_ok {env : Env} {load : String → Option Provider} {s : Struct} {c : String} {d : Dict} {p : Provider}
    (hs : Carries s c) (hd : readProps env false s = .ok d) (hp : getProvider load d = .ok p) :
    c ≠ Wire.UNKNOWN ∧ d.lookup providerKey = some (.str c) ∧ load c = some p := by
  obtain ⟨c', hl, hc'⟩ := getProvider_ok hp
  have hr := read_code hs hd
  have hl' : d.lookup "__provider" = some (.str c') := hl
  rw [hl'] at hr
  have hne : c ≠ Wire.UNKNOWN := by
    intro e
    rw [e] at hr
    simp only [Option.getD_some, Wire.desStr, if_true] at hr
    cases hr
  have := read_code_known hs hne hd
  rw [this] at hl
  cases hl
  exact ⟨hne, this, hc'⟩

theorem ran_ok {α : Type} {x : Except String α} {a : α} : ran x = .ok a ↔ x = .ok a := by
  cases x <;> simp [ran]

theorem stamp_ok {o d : Dict} {r : Dict} (h : stamp o d = .ok r) :
    ∃ v, d.lookup providerKey = some v ∧ r = setKey o providerKey v := by
  obtain ⟨v, hv, h⟩ := bind_ok.1 h
  cases h
  unfold item at hv
  split at hv
  · cases hv; exact ⟨v, by assumption, rfl⟩
  · cases hv

theorem stamp_of {o d : Dict} {v : PV} (h : d.lookup providerKey = some v) :
    stamp o d = .ok (setKey o providerKey v) := by
  unfold stamp item
  rw [h]
  rfl

theorem stampOpt_ok {o : Option Dict} {d r : Dict} (h : stampOpt o d = .ok r) :
    ∃ o', o = some o' ∧ stamp o' d = .ok r := by
  cases o with
  | some o' => exact ⟨o', rfl, h⟩
  | none =>
    obtain ⟨_, _, h⟩ := bind_ok.1 h
    cases h

/-! ## The handlers, step by step -/

theorem create_ok {env : Env} {load : String → Option Provider} {props : Struct} {id : String} {s : Struct}
    (h : create env load props = .ok (id, s)) :
    ∃ d p r d' o, readProps env false props = .ok d ∧ getProvider load d = .ok p ∧ p.create d = .ok (r, d') ∧
      stamp (r.outs.getD []) d' = .ok o ∧ writeProps env o = .ok s ∧ id = r.id := by
  obtain ⟨d, hd, h⟩ := bind_ok.1 h
  obtain ⟨p, hp, h⟩ := bind_ok.1 h
  obtain ⟨⟨r, d'⟩, hr, h⟩ := bind_ok.1 h
  obtain ⟨o, ho, h⟩ := bind_ok.1 h
  obtain ⟨s', hs, h⟩ := bind_ok.1 h
  cases h
  exact ⟨d, p, r, d', o, hd, hp, ran_ok.1 hr, ho, hs, rfl⟩

theorem update_ok {env : Env} {load : String → Option Provider} {id : String} {olds news : Struct} {s : Struct}
    (h : update env load id olds news = .ok s) :
    ∃ o n p r n' outs, readProps env false olds = .ok o ∧ readProps env false news = .ok n ∧
      getProvider load n = .ok p ∧ p.update id o n = .ok (r, n') ∧
      stamp (r.outs.getD []) n' = .ok outs ∧ writeProps env outs = .ok s := by
  obtain ⟨o, ho, h⟩ := bind_ok.1 h
  obtain ⟨n, hn, h⟩ := bind_ok.1 h
  obtain ⟨p, hp, h⟩ := bind_ok.1 h
  obtain ⟨⟨r, n'⟩, hr, h⟩ := bind_ok.1 h
  obtain ⟨outs, hs, h⟩ := bind_ok.1 h
  exact ⟨o, n, p, r, n', outs, ho, hn, hp, ran_ok.1 hr, hs, h⟩

theorem read_ok {env : Env} {load : String → Option Provider} {id id' : String} {props s : Struct}
    (h : read env load id props = .ok (id', s)) :
    ∃ d p r d' o, readProps env false props = .ok d ∧ getProvider load d = .ok p ∧ p.read id d = .ok (r, d') ∧
      stampOpt r.outs d' = .ok o ∧ writeProps env o = .ok s ∧ id' = r.id.getD "" := by
  obtain ⟨d, hd, h⟩ := bind_ok.1 h
  obtain ⟨p, hp, h⟩ := bind_ok.1 h
  obtain ⟨⟨r, d'⟩, hr, h⟩ := bind_ok.1 h
  obtain ⟨o, ho, h⟩ := bind_ok.1 h
  obtain ⟨s', hs, h⟩ := bind_ok.1 h
  cases h
  exact ⟨d, p, r, d', o, hd, hp, ran_ok.1 hr, ho, hs, rfl⟩

theorem good_nil : GoodOuts [] := ⟨by simp, by simp⟩

theorem good_getD {o : Option Dict} (h : ∀ x, o = some x → GoodOuts x) : GoodOuts (o.getD []) := by
  cases o with
  | none => exact good_nil
  | some x => exact h x rfl

theorem collect_sublist {env : Env} {keep : Bool} {kvs : Struct} {es : Dict}
    (h : Wire.collect false (Wire.desKvs env keep kvs) = .ok es) : (es.map (·.1)).Sublist (kvs.map (·.1)) := by
  induction kvs generalizing es with
  | nil => cases h; exact .slnil
  | cons p kvs ih =>
    obtain ⟨k, w⟩ := p
    obtain ⟨es', he, hc⟩ := Wire.collect_cons h
    rcases hc with ⟨_, rfl⟩ | ⟨_, _, rfl⟩ | ⟨_, v0, _, _, rfl⟩
    · exact (ih he).cons _
    · exact (ih he).cons _
    · exact (ih he).cons_cons _

theorem read_good {env : Env} {keep : Bool} {s : Struct} {c : String} {d : Dict} (hs : Carries s c)
    (h : readProps env keep s = .ok d) : GoodOuts d := by
  cases Wire.structCase (readProps_ok h) with
  | ordinary _ hc hv =>
    cases hv
    have hsub := collect_sublist hc
    refine ⟨hs.distinct.sublist hsub, fun hm => ?_⟩
    have hm' := hsub.subset hm
    obtain ⟨⟨k, w⟩, hkv, e⟩ := List.mem_map.1 hm'
    exact Wire.lookup_eq_none hs.ordinary _ hkv e
  | asset h => rw [hs.ordinary] at h; cases h
  | archive h => rw [hs.ordinary] at h; cases h
  | secret h => rw [hs.ordinary] at h; cases h
  | reference h => rw [hs.ordinary] at h; cases h
  | output h => rw [hs.ordinary] at h; cases h

/-- The invariant of the life of a resource. -/
theorem lives_carries {env : Env} {load : String → Option Provider} (hb : ∀ c p, load c = some p → Behaves p)
    {c id : String} {s : Struct} (h : Lives env load c id s) :
    Carries s c ∧ c ≠ Wire.UNKNOWN ∧ ∃ p, load c = some p := by
  induction h with
  | created hc h =>
    obtain ⟨d, p, r, d', o, hd, hp, hr, ho, hs, rfl⟩ := create_ok h
    obtain ⟨hne, hl, hlp⟩ := code_of_ok hc hd hp
    obtain ⟨v, hv, rfl⟩ := stamp_ok ho
    have hcr := (hb _ _ hlp).create (read_good hc hd) hr
    have : d'.lookup providerKey = d.lookup providerKey := hcr.1
    rw [this, hl] at hv
    cases hv
    exact ⟨written_carries (good_getD hcr.2) hs, hne, p, hlp⟩
  | updated _ hc h ih =>
    obtain ⟨o, n, p, r, n', outs, hoo, hn, hp, hr, ho, hs⟩ := update_ok h
    obtain ⟨hne, hl, hlp⟩ := code_of_ok hc hn hp
    obtain ⟨v, hv, rfl⟩ := stamp_ok ho
    have hcr := (hb _ _ hlp).update (read_good ih.1 hoo) (read_good hc hn) hr
    have : n'.lookup providerKey = n.lookup providerKey := hcr.1
    rw [this, hl] at hv
    cases hv
    exact ⟨written_carries (good_getD hcr.2) hs, hne, p, hlp⟩
  | refreshed _ h ih =>
    obtain ⟨hc, hne, _⟩ := ih
    obtain ⟨d, p, r, d', o, hd, hp, hr, ho, hs, rfl⟩ := read_ok h
    obtain ⟨_, hl, hlp⟩ := code_of_ok hc hd hp
    obtain ⟨o', ho', ho⟩ := stampOpt_ok ho
    obtain ⟨v, hv, rfl⟩ := stamp_ok ho
    have hcr := (hb _ _ hlp).read (read_good hc hd) hr
    have : d'.lookup providerKey = d.lookup providerKey := hcr.1
    rw [this, hl] at hv
    cases hv
    exact ⟨written_carries (hcr.2 _ ho') hs, hne, p, hlp⟩

end Pulumi.Dynamic
