import Verif.ConfigMap.Lemmas
import Verif.Checkpoint.Json
/-! # Setting, getting and removing configuration (C184–C186) -/
namespace Pulumi.ConfigMap

open Wire (W)
open Checkpoint (Codec)
open Paths (Path)

/-! ## Lemmas -/

theorem parseKeyPath_ok {k : Key} {p : Path} {ck : Key} (h : parseKeyPath k = .ok (p, ck)) :
    ∃ s rest, Paths.parse k.name.toList = .ok (.name s :: rest) ∧ s ≠ [] ∧ p = .name s :: rest ∧ ck = ⟨k.ns, String.ofList s⟩ := by
  unfold parseKeyPath at h
  split at h
  · cases h
  · cases h
  · cases h
  · rename_i s rest hp
    split at h
    · cases h
    · rename_i hs
      cases h
      exact ⟨s, rest, hp, hs, rfl, rfl⟩

theorem parseKeyPath_means {k : Key} {s : List Char} {rest : Path} (h : Paths.parse k.name.toList = .ok (.name s :: rest)) (hs : s ≠ []) :
    parseKeyPath k = .ok (.name s :: rest, ⟨k.ns, String.ofList s⟩) := by
  unfold parseKeyPath
  rw [h]
  simp only [if_neg hs]

theorem get_eq (J : Codec) (m : Map) {k : Key} {s : List Char} {rest : Path}
    (h : Paths.parse k.name.toList = .ok (.name s :: rest)) (hs : s ≠ []) :
    m.get J k true = if rest = [] then .ok (find ⟨k.ns, String.ofList s⟩ m)
      else (rootOf J m ⟨k.ns, String.ofList s⟩).map fun r => (getForPath r (.name s :: rest)).map (found J) := by
  unfold Map.get
  rw [parseKeyPath_means h hs]
  simp only [Bool.not_true, Bool.false_eq_true, if_false, bind, Except.bind]
  by_cases hr : rest = []
  · subst hr
    simp
    rfl
  · have hl : ¬ (Paths.Key.name s :: rest).length = 1 := by
      simp only [List.length_cons]
      intro e
      exact hr (List.eq_nil_of_length_eq_zero (by omega))
    rw [if_neg hl, if_neg hr]
    cases rootOf J m ⟨k.ns, String.ofList s⟩ <;> rfl

theorem set_ok {J : Codec} {m : Map} {k : Key} {v : Value} {m' : Map} (h : m.set J k v true = .ok m') :
    ∃ s rest, Paths.parse k.name.toList = .ok (.name s :: rest) ∧ s ≠ [] ∧
      ((rest = [] ∧ m' = put ⟨k.ns, String.ofList s⟩ v m) ∨
       (rest ≠ [] ∧ ∃ root w root' x, rootOf J m ⟨k.ns, String.ofList s⟩ = .ok root ∧ adjusted J v = .ok w ∧
          setAt w (forgetString root) (.name s) rest = .ok root' ∧ step root' (.name s) = some x ∧
          m' = put ⟨k.ns, String.ofList s⟩ ⟨J.print x, v.secure, true⟩ m)) := by
  unfold Map.set at h
  cases hp : parseKeyPath k with
  | error e => rw [hp] at h; cases h
  | ok r =>
    obtain ⟨p, ck⟩ := r
    obtain ⟨s, rest, h1, h2, rfl, rfl⟩ := parseKeyPath_ok hp
    refine ⟨s, rest, h1, h2, ?_⟩
    rw [hp] at h
    simp only [Bool.not_true, Bool.false_eq_true, if_false, bind, Except.bind] at h
    cases rest with
    | nil => cases h; exact .inl ⟨rfl, rfl⟩
    | cons k' rest =>
      right
      refine ⟨by simp, ?_⟩
      simp only at h
      cases h3 : rootOf J m ⟨k.ns, String.ofList s⟩ with
      | error e => rw [h3] at h; cases h
      | ok root =>
        rw [h3] at h
        simp only at h
        cases h4 : adjusted J v with
        | error e => rw [h4] at h; cases h
        | ok w =>
          rw [h4] at h
          simp only at h
          cases h5 : setAt w (forgetString root) (.name s) (k' :: rest) with
          | error e => rw [h5] at h; cases h
          | ok root' =>
            rw [h5] at h
            cases h
            have hx : ∃ x, step root' (.name s) = some x := by
              have := setAt_same h5
              rw [getForPath_cons] at this
              cases hx : step root' (.name s) with
              | none => rw [hx] at this; cases this
              | some x => exact ⟨x, rfl⟩
            obtain ⟨x, hx⟩ := hx
            exact ⟨root, w, root', x, rfl, rfl, h5, hx, by rw [hx]; rfl⟩

theorem rootOf_put {J : Codec} (m : Map) (k : Key) (v : Value) :
    rootOf J (put k v m) k = (v.toObject J).map fun obj => .struct [(k.name, obj)] := by
  unfold rootOf
  rw [find_put_same]
  cases hv : v.toObject J with
  | error e => simp only [bind, Except.bind, hv, Except.map]
  | ok w => simp only [bind, Except.bind, hv, Except.map, pure, Except.pure]

theorem rootOf_put_other {J : Codec} (m : Map) {k k' : Key} (h : k' ≠ k) (v : Value) : rootOf J (put k v m) k' = rootOf J m k' := by
  unfold rootOf
  rw [find_put_other h]

theorem step_root (s : List Char) (w : W) : step (.struct [(String.ofList s, w)]) (.name s) = some w := by
  simp [step, find]

theorem toObject_print {J : Codec} (hJ : Faithful J) (w : W) (b : Bool) : (Value.mk (J.print w) b true).toObject J = .ok w := by
  simp [Value.toObject, decode, hJ w]

/-- What is read at a path of two or more steps after a value has been put at the first. -/
theorem get_put {J : Codec} (m : Map) (ns : String) (s : List Char) (v : Value) {w : W} (hv : v.toObject J = .ok w) (q : Path) :
    (rootOf J (put ⟨ns, String.ofList s⟩ v m) ⟨ns, String.ofList s⟩).map (fun r => (getForPath r (.name s :: q)).map (found J)) =
      .ok ((getForPath w q).map (found J)) := by
  rw [rootOf_put, hv]
  simp only [Except.map]
  rw [getForPath_cons, step_root]
  rfl

theorem forgetString_get (root : W) (k : Paths.Key) (q : Path) (hq : q ≠ []) :
    getForPath (forgetString root) (k :: q) = getForPath root (k :: q) := by
  unfold forgetString
  split
  · rename_i n s
    rw [getForPath_cons, getForPath_cons]
    cases k with
    | idx i => rfl
    | name t =>
      simp only [step, find]
      split
      · simp only [Option.bind_some]
        rw [getForPath_leaf step_null hq, getForPath_leaf (step_str s) hq]
      · rfl
  · rfl

theorem elsewhere_ne {k q : Key} {s t : List Char} {r u : Path} (h : Elsewhere k q)
    (hk : Paths.parse k.name.toList = .ok (.name s :: r)) (hq : Paths.parse q.name.toList = .ok (.name t :: u)) :
    (Key.mk q.ns (String.ofList t) ≠ Key.mk k.ns (String.ofList s)) ∨ (q.ns = k.ns ∧ t = s ∧ Apart r u) := by
  by_cases hn : q.ns = k.ns
  · have ha := (h.resolve_left (fun e => e hn)) _ _ hk hq
    rcases apart_cons ha with hne | ⟨he, hp⟩
    · left
      intro e
      simp only [Key.mk.injEq] at e
      exact hne (by rw [ofList_inj e.2])
    · right
      simp only [Paths.Key.name.injEq] at he
      exact ⟨hn, he, hp⟩
  · left
    intro e
    simp only [Key.mk.injEq] at e
    exact hn e.1

/-- Getting something that has no path, whatever the map. -/
theorem get_bad (J : Codec) (m m' : Map) (q : Key) (h : ∀ s rest, Paths.parse q.name.toList = .ok (.name s :: rest) → s = []) :
    m'.get J q true = m.get J q true := by
  unfold Map.get
  cases hp : parseKeyPath q with
  | error e => rfl
  | ok r =>
    obtain ⟨p, ck⟩ := r
    obtain ⟨s, rest, h1, h2, _⟩ := parseKeyPath_ok hp
    exact absurd (h s rest h1) h2

theorem means_or_bad (q : Key) : (∃ s rest, Paths.parse q.name.toList = .ok (.name s :: rest) ∧ s ≠ []) ∨
    ∀ s rest, Paths.parse q.name.toList = .ok (.name s :: rest) → s = [] := by
  by_cases h : ∃ s rest, Paths.parse q.name.toList = .ok (.name s :: rest) ∧ s ≠ []
  · exact .inl h
  · right
    intro s rest hp
    by_cases hs : s = []
    · exact hs
    · exact absurd ⟨s, rest, hp, hs⟩ h

theorem get_put_other {J : Codec} (m : Map) (ck : Key) (v : Value) {q : Key} {t : List Char} {u : Path}
    (hq : Paths.parse q.name.toList = .ok (.name t :: u)) (ht : t ≠ []) (hne : Key.mk q.ns (String.ofList t) ≠ ck) :
    (Map.get J (put ck v m) q true) = m.get J q true := by
  rw [get_eq J _ hq ht, get_eq J _ hq ht, find_put_other hne, rootOf_put_other _ hne]

theorem found_adjust (J : Codec) (v : Value) (hv : v.object = false) :
    ∃ t, found J (adjust v) = ⟨t, v.secure, false⟩ ∧ (v.secure = true → t = v.value) ∧ SameText v.value t := by
  obtain ⟨value, secure, object⟩ := v
  simp only at hv
  subst hv
  unfold adjust
  simp only
  cases secure with
  | true => exact ⟨value, by simp [found, secureW, isSecure], fun _ => rfl, .inl rfl⟩
  | false =>
    simp only [Bool.false_eq_true, if_false]
    split
    · rename_i h
      subst h
      exact ⟨"false", by simp [found, isSecure], fun h => (by cases h), .inl rfl⟩
    · split
      · rename_i h
        subst h
        exact ⟨"true", by simp [found, isSecure], fun h => (by cases h), .inl rfl⟩
      · split
        · exact ⟨value, by simp [found, isSecure], fun h => (by cases h), .inl rfl⟩
        · rename_i hz
          split
          · rename_i i hi
            refine ⟨String.ofList (Paths.intText i), by simp [found, isSecure], fun h => (by cases h), ?_⟩
            rcases intText_parseInt _ i hi hz with h | h
            · exact .inl (by rw [h]; simp)
            · exact .inr ⟨i, h, hi, by simp⟩
          · exact ⟨value, by simp [found, isSecure], fun h => (by cases h), .inl rfl⟩

/-! ## Setting and getting -/

/-- **C184.** A text or a secret that has been set, at a path or not, is what is got there: the secret as it is, and the text
unless it is a number with a needless sign or zero. -/
theorem set_then_get {J : Codec} (hJ : Faithful J) (m m' : Map) (k : Key) (v : Value) (hv : v.object = false)
    (h : m.set J k v true = .ok m') :
    ∃ t, m'.get J k true = .ok (some ⟨t, v.secure, false⟩) ∧ (v.secure = true → t = v.value) ∧ SameText v.value t := by
  obtain ⟨s, rest, hp, hs, ⟨hr, rfl⟩ | ⟨hr, root, w, root', x, _, h2, h3, h4, rfl⟩⟩ := set_ok h
  · refine ⟨v.value, ?_, fun _ => rfl, .inl rfl⟩
    rw [get_eq J _ hp hs, if_pos hr, find_put_same, ← hv]
  · rw [get_eq J _ hp hs, if_neg hr, get_put m k.ns s _ (toObject_print hJ x v.secure)]
    have hg := setAt_same h3
    rw [getForPath_cons, h4] at hg
    simp only [Option.bind_some] at hg
    rw [hg]
    unfold adjusted at h2
    rw [hv] at h2
    cases h2
    obtain ⟨t, h5, h6, h7⟩ := found_adjust J v hv
    exact ⟨t, by rw [Option.map_some, h5], h6, h7⟩

/-- **C184.** An object that has been set is what is got there: the same JSON. -/
theorem set_object_then_get {J : Codec} (hJ : Faithful J) (m m' : Map) (k : Key) (v : Value) (hv : v.object = true)
    (kvs : List (String × W)) (hw : J.parse v.value = some (.struct kvs)) (hs : isSecure (.struct kvs) = none)
    (h : m.set J k v true = .ok m') :
    ∃ v', m'.get J k true = .ok (some v') ∧ v'.object = true ∧ J.parse v'.value = some (.struct kvs) := by
  obtain ⟨s, rest, hp, hs', ⟨hr, rfl⟩ | ⟨hr, root, w, root', x, _, h2, h3, h4, rfl⟩⟩ := set_ok h
  · exact ⟨v, by rw [get_eq J _ hp hs', if_pos hr, find_put_same], hv, hw⟩
  · rw [get_eq J _ hp hs', if_neg hr, get_put m k.ns s _ (toObject_print hJ x v.secure)]
    have hg := setAt_same h3
    rw [getForPath_cons, h4] at hg
    simp only [Option.bind_some] at hg
    rw [hg]
    unfold adjusted at h2
    rw [hv, if_pos rfl, hw] at h2
    cases h2
    refine ⟨⟨J.print (.struct kvs), hasSecure (.struct kvs), true⟩, ?_, rfl, hJ _⟩
    rw [Option.map_some, found, hs]
    all_goals
      intro _ e
      cases e

/-- **C185.** Setting changes nothing elsewhere: what is got for a key that is neither of what was set, nor of what it is in, nor of
a part of it, is what was got before. -/
theorem set_changes_nothing_else {J : Codec} (hJ : Faithful J) (m m' : Map) (k q : Key) (v : Value) (h : m.set J k v true = .ok m')
    (hq : Elsewhere k q) : m'.get J q true = m.get J q true := by
  rcases means_or_bad q with ⟨t, u, hq1, ht⟩ | hbad
  · obtain ⟨s, rest, hp, hs, ⟨hr, rfl⟩ | ⟨hr, root, w, root', x, h1, h2, h3, h4, rfl⟩⟩ := set_ok h
    · rcases elsewhere_ne hq hp hq1 with hne | ⟨_, _, ha⟩
      · exact get_put_other m _ v hq1 ht hne
      · exact absurd hr (not_apart_nil ha).1
    · rcases elsewhere_ne hq hp hq1 with hne | ⟨hns, rfl, ha⟩
      · exact get_put_other m _ _ hq1 ht hne
      · have hu := (not_apart_nil ha).2
        rw [get_eq J _ hq1 ht, get_eq J _ hq1 ht, if_neg hu, if_neg hu, hns, get_put m k.ns t _ (toObject_print hJ x v.secure), h1]
        simp only [Except.map]
        congr 2
        have hp' : Apart (.name t :: rest) (.name t :: u) := by
          refine ⟨fun ⟨z, hz⟩ => ha.1 ⟨z, ?_⟩, fun ⟨z, hz⟩ => ha.2 ⟨z, ?_⟩⟩
          · simpa using hz
          · simpa using hz
        have hg := setAt_apart h3 hp'
        rw [forgetString_get root _ _ hu, getForPath_cons, h4] at hg
        exact hg
  · exact get_bad J m _ q hbad

/-- **C185.** What contains what was set is an object, and never taken for a secret. -/
theorem what_contains_is_an_object {J : Codec} (hJ : Faithful J) (m m' : Map) (k q : Key) (v : Value)
    (h : m.set J k v true = .ok m') (p p' : Path) (hk : Paths.parse k.name.toList = .ok p) (hns : q.ns = k.ns) (hq : Means q p')
    (hpre : p' <+: p) (hne : p' ≠ p) : ∃ v', m'.get J q true = .ok (some v') ∧ v'.object = true := by
  obtain ⟨hq1, t, u, rfl, ht⟩ := hq
  obtain ⟨s, rest, hp, hs, ⟨rfl, rfl⟩ | ⟨hr, root, w, root', x, h1, h2, h3, h4, rfl⟩⟩ := set_ok h
  · rw [hp] at hk
    cases hk
    obtain ⟨z, hz⟩ := hpre
    simp only [List.cons_append, List.cons.injEq, Paths.Key.name.injEq, List.append_eq_nil_iff] at hz
    exact absurd (by rw [hz.1, hz.2.1]) hne
  · rw [hp] at hk
    cases hk
    obtain ⟨z, hz⟩ := hpre
    simp only [List.cons_append, List.cons.injEq, Paths.Key.name.injEq] at hz
    obtain ⟨rfl, hz⟩ := hz
    by_cases hu : u = []
    · subst hu
      rw [get_eq J _ hq1 ht, if_pos rfl, hns, find_put_same]
      exact ⟨_, rfl, rfl⟩
    · rw [get_eq J _ hq1 ht, if_neg hu, hns, get_put m k.ns t _ (toObject_print hJ x v.secure)]
      obtain ⟨y, hy, hh⟩ := setAt_prefix h3 (q := .name t :: u) ⟨z, by rw [← hz]; rfl⟩ hne
      rw [getForPath_cons, h4] at hy
      simp only [Option.bind_some] at hy
      rw [hy]
      refine ⟨_, rfl, ?_⟩
      unfold found
      rw [hh.1]
      rcases hh.2 with ⟨ws, rfl⟩ | ⟨kvs, rfl⟩ <;> rfl

/-! ## What can be set -/

theorem put_insecure {k : String} (hk : k ≠ "secure") (v : W) (kvs : List (String × W)) : isSecure (.struct (put k v kvs)) = none := by
  cases h : isSecure (.struct (put k v kvs)) with
  | none => rfl
  | some s =>
    have he := isSecure_some h
    simp only [W.struct.injEq] at he
    have := find_put_same k v kvs
    rw [he] at this
    rw [find, if_neg (fun e => hk e.symm)] at this
    cases this

/-- A container, that is one that the next key of a path is of. -/
theorem container_holds {w : W} {k : Paths.Key} {p : Path} (h : CanHold w (k :: p)) :
    ∃ c, container w k = .ok c ∧ CanHold c (k :: p) ∧ c ≠ .null := by
  cases k with
  | idx i =>
    cases w with
    | list ws => exact ⟨_, rfl, h, fun e => by cases e⟩
    | null =>
      refine ⟨.list [], rfl, ?_, fun e => by cases e⟩
      obtain ⟨h0, h1⟩ := h
      subst h0
      exact ⟨by omega, by simp, by simpa using h1⟩
    | _ => exact h.elim
  | name s =>
    cases w with
    | struct kvs => exact ⟨_, rfl, h, fun e => by cases e⟩
    | null => exact ⟨.struct [], rfl, h, fun e => by cases e⟩
    | _ => exact h.elim

theorem setValue_holds {w : W} {k : Paths.Key} {p : Path} (h : CanHold w (k :: p)) (hw : w ≠ .null) (v : W) :
    ∃ c, setValue w k v = .ok c ∧ (k ≠ .name "secure".toList → isSecure c = none) := by
  cases k with
  | idx i =>
    cases w with
    | list ws =>
      obtain ⟨h1, h2, _⟩ := h
      rw [setValue, if_neg (by omega)]
      split
      · exact ⟨_, rfl, fun _ => rfl⟩
      · exact ⟨_, rfl, fun _ => rfl⟩
    | null => exact absurd rfl hw
    | _ => exact h.elim
  | name s =>
    cases w with
    | struct kvs =>
      refine ⟨_, rfl, fun hs => put_insecure (fun e => hs ?_) v kvs⟩
      rw [← e]
      simp
    | null => exact absurd rfl hw
    | _ => exact h.elim

theorem getValue_holds {w : W} {k : Paths.Key} {p : Path} (h : CanHold w (k :: p)) (hw : w ≠ .null) :
    ∃ old, getValue w k = .ok old ∧ CanHold old p := by
  cases k with
  | idx i =>
    cases w with
    | list ws =>
      obtain ⟨h1, h2, h3⟩ := h
      rw [getValue, if_neg (by omega)]
      exact ⟨_, rfl, h3⟩
    | null => exact absurd rfl hw
    | _ => exact h.elim
  | name s =>
    cases w with
    | struct kvs =>
      refine ⟨_, rfl, ?_⟩
      rw [find_eq_lookup]
      exact h
    | null => exact absurd rfl hw
    | _ => exact h.elim

theorem setAt_holds (v : W) {c : W} {k : Paths.Key} {rest : Path} (h : CanHold c (k :: rest)) (hc : c ≠ .null)
    (hl : (k :: rest).getLast? ≠ some (.name "secure".toList)) : ∃ c', setAt v c k rest = .ok c' := by
  induction rest generalizing c k with
  | nil =>
    obtain ⟨c', h1, h2⟩ := setValue_holds h hc v
    refine ⟨c', ?_⟩
    have hs := h2 (fun e => hl (by rw [e]; rfl))
    simp [setAt, h1, hs, bind, Except.bind, pure, Except.pure]
  | cons k' rest ih =>
    obtain ⟨old, h1, h2⟩ := getValue_holds h hc
    obtain ⟨inner, h3, h4, h5⟩ := container_holds h2
    obtain ⟨inner', h6⟩ := ih h4 h5 (by rwa [List.getLast?_cons_cons] at hl)
    obtain ⟨c', h7, _⟩ := setValue_holds h hc inner'
    exact ⟨c', by simp [setAt, h1, h3, h6, h7, bind, Except.bind]⟩

/-- **C184.** A text or a secret can be set at every path on whose way there are only containers of the right kind; a text or a secret
at the top makes way. Only the reserved name is refused. -/
theorem set_succeeds (J : Codec) (m : Map) (k : Key) (v : Value) (hv : v.object = false) (s : List Char) (rest : Path)
    (hk : Means k (.name s :: rest)) (hl : rest.getLast? ≠ some (.name "secure".toList))
    (htop : ∀ v0, find ⟨k.ns, String.ofList s⟩ m = some v0 → v0.object = true → ∃ w, J.parse v0.value = some w ∧ CanHold w rest)
    (hnew : (∀ v0, find ⟨k.ns, String.ofList s⟩ m = some v0 → v0.object = false) → CanHold .null rest) :
    ∃ m', m.set J k v true = .ok m' := by
  obtain ⟨hp, s', rest', he, hs⟩ := hk
  cases he
  unfold Map.set
  rw [parseKeyPath_means hp hs]
  simp only [Bool.not_true, Bool.false_eq_true, if_false, bind, Except.bind]
  cases rest with
  | nil => exact ⟨_, rfl⟩
  | cons k' rest =>
    have hl' : (Paths.Key.name s :: k' :: rest).getLast? ≠ some (.name "secure".toList) := by rwa [List.getLast?_cons_cons]
    have hroot : ∃ root, rootOf J m ⟨k.ns, String.ofList s⟩ = .ok root ∧ CanHold (forgetString root) (.name s :: k' :: rest) ∧
        forgetString root ≠ .null := by
      unfold rootOf
      cases hf : find ⟨k.ns, String.ofList s⟩ m with
      | none => exact ⟨_, rfl, hnew (fun v0 h => by rw [hf] at h; cases h), fun e => by cases e⟩
      | some v0 =>
        cases ho : v0.object with
        | false =>
          refine ⟨.struct [(String.ofList s, .str v0.value)], by simp [Value.toObject, ho, bind, Except.bind, pure, Except.pure], ?_,
            fun e => by cases e⟩
          have := hnew (fun v1 h => by rw [hf] at h; cases h; exact ho)
          simpa [forgetString, CanHold] using this
        | true =>
          obtain ⟨w, hw, hh⟩ := htop v0 hf ho
          refine ⟨.struct [(String.ofList s, w)], by simp [Value.toObject, ho, decode, hw, bind, Except.bind, pure, Except.pure], ?_⟩
          have hg : forgetString (.struct [(String.ofList s, w)]) = .struct [(String.ofList s, w)] := by
            unfold forgetString
            split
            · rename_i e
              simp only [W.struct.injEq, List.cons.injEq, Prod.mk.injEq, and_true] at e
              rw [e.2] at hh
              cases k' <;> exact False.elim hh
            · rfl
          rw [hg]
          exact ⟨by simpa [CanHold] using hh, fun e => by cases e⟩
    obtain ⟨root, h1, h2, h3⟩ := hroot
    obtain ⟨root', h4⟩ := setAt_holds (adjust v) h2 h3 hl'
    simp only [h1, adjusted, hv, Bool.false_eq_true, if_false, h4]
    exact ⟨_, rfl⟩

/-! ## Removing -/

theorem fromJson_get {J : Codec} (hJ : Faithful J) (w : W) : ∃ x, (fromJson J w).toObject J = .ok x ∧
    ∀ q, q ≠ [] → (∀ s, w = .struct [("secure", .str s)] → q ≠ [.name "secure".toList]) → getForPath x q = getForPath w q := by
  have hobj : ∀ w, (∀ s, w ≠ .str s) → w ≠ .null → ∃ x, (fromJson J w).toObject J = .ok x ∧
    ∀ q, q ≠ [] → (∀ s, w = .struct [("secure", .str s)] → q ≠ [.name "secure".toList]) → getForPath x q = getForPath w q := by
    intro w h1 h2
    have hf : fromJson J w = (match isSecure w with
      | some s => ⟨s, true, false⟩
      | none => ⟨J.print w, hasSecure w, true⟩) := by
      cases w with
      | str s => exact absurd rfl (h1 s)
      | null => exact absurd rfl h2
      | _ => rfl
    rw [hf]
    cases hs : isSecure w with
    | none => exact ⟨w, toObject_print hJ w _, fun _ _ _ => rfl⟩
    | some s =>
      refine ⟨.str s, rfl, fun q hq hn => ?_⟩
      have he := isSecure_some hs
      have hn := hn s he
      rw [getForPath_leaf (step_str s) hq, he]
      cases q with
      | nil => exact absurd rfl hq
      | cons k q =>
        rw [getForPath_cons]
        cases hk : step (.struct [("secure", .str s)]) k with
        | none => rfl
        | some y =>
          obtain ⟨rfl, rfl⟩ := secure_step hk
          rw [Option.bind_some, getForPath_leaf (step_str s)]
          rintro rfl
          exact hn rfl
  cases w with
  | str s => exact ⟨.str s, rfl, fun _ _ _ => rfl⟩
  | null => exact ⟨.str "", rfl, fun q hq _ => by rw [getForPath_leaf (step_str "") hq, getForPath_leaf step_null hq]⟩
  | _ => exact hobj _ (fun _ h => by cases h) (fun h => by cases h)

theorem remove_ok {J : Codec} {m : Map} {k : Key} {m' : Map} (h : m.remove J k true = .ok m') {s : List Char} {rest : Path}
    (hp : Paths.parse k.name.toList = .ok (.name s :: rest)) (hs : s ≠ []) :
    (rest = [] ∧ m' = drop ⟨k.ns, String.ofList s⟩ m) ∨
    (rest ≠ [] ∧ ∃ root, rootOf J m ⟨k.ns, String.ofList s⟩ = .ok root ∧
      ((removeAt root (.name s) rest = .ok none ∧ m' = m) ∨
       ∃ root' x, removeAt root (.name s) rest = .ok (some root') ∧ step root' (.name s) = some x ∧
         m' = put ⟨k.ns, String.ofList s⟩ (fromJson J x) m)) := by
  unfold Map.remove at h
  rw [hp] at h
  simp only [Bool.not_true, Bool.false_eq_true, if_false, if_neg hs] at h
  cases rest with
  | nil => cases h; exact .inl ⟨rfl, rfl⟩
  | cons k' rest =>
    right
    refine ⟨by simp, ?_⟩
    simp only [bind, Except.bind] at h
    cases h1 : rootOf J m ⟨k.ns, String.ofList s⟩ with
    | error e => rw [h1] at h; cases h
    | ok root =>
      rw [h1] at h
      simp only at h
      refine ⟨root, rfl, ?_⟩
      cases h2 : removeAt root (.name s) (k' :: rest) with
      | error e => rw [h2] at h; cases h
      | ok o =>
        rw [h2] at h
        cases o with
        | none => cases h; exact .inl ⟨rfl, rfl⟩
        | some root' =>
          cases h
          obtain ⟨_, inner', _, _, h3⟩ := removeAt_cons h2
          have hx := (setValue_step h3).1
          exact .inr ⟨root', inner', rfl, hx, by rw [hx]; rfl⟩

theorem rootOf_step {J : Codec} {m : Map} {ns : String} {s : List Char} {root : W} (h : rootOf J m ⟨ns, String.ofList s⟩ = .ok root)
    {w : W} (hw : step root (.name s) = some w) : ∃ v, find ⟨ns, String.ofList s⟩ m = some v ∧ v.toObject J = .ok w := by
  unfold rootOf at h
  cases hf : find ⟨ns, String.ofList s⟩ m with
  | none =>
    rw [hf] at h
    cases h
    cases hw
  | some v =>
    rw [hf] at h
    simp only [bind, Except.bind] at h
    cases hv : v.toObject J with
    | error e => rw [hv] at h; cases h
    | ok x =>
      rw [hv] at h
      cases h
      rw [step_root] at hw
      cases hw
      exact ⟨v, rfl, hv⟩

theorem getForPath_prefix_none {w : W} {p q : Path} (h : getForPath w p = none) : getForPath w (p ++ q) = none := by
  induction p generalizing w with
  | nil => cases h
  | cons k p ih =>
    rw [List.cons_append, getForPath_cons]
    rw [getForPath_cons] at h
    cases hs : step w k with
    | none => rfl
    | some x =>
      rw [hs] at h
      exact ih h

/-- There is nothing at a path at which nothing is removed. -/
theorem removeAt_none {c : W} {k : Paths.Key} {rest : Path} (h : removeAt c k rest = .ok none) : getForPath c (k :: rest) = none := by
  induction rest generalizing c k with
  | nil =>
    rw [getForPath_cons]
    cases c with
    | list ws =>
      cases k with
      | name s => rfl
      | idx i =>
        rw [removeAt] at h
        split at h
        · rename_i hr
          rw [step]
          split
          · rfl
          · rw [List.getElem?_eq_none (by omega)]
            rfl
        · cases h
    | struct kvs =>
      cases k with
      | idx i => rfl
      | name s =>
        rw [removeAt] at h
        split at h <;> cases h
    | _ => cases h
  | cons k' rest ih =>
    have hu : removeAt c k (k' :: rest) = (match step c k with
      | none => .ok none
      | some inner => do
        match ← removeAt inner k' rest with
        | none => return none
        | some inner' => return some (← setValue c k inner')) := by
      cases c <;> rfl
    rw [hu] at h
    rw [getForPath_cons]
    cases h1 : step c k with
    | none => rfl
    | some inner =>
      rw [h1] at h
      simp only [bind, Except.bind] at h
      cases h2 : removeAt inner k' rest with
      | error e => rw [h2] at h; cases h
      | ok o =>
        rw [h2] at h
        cases o with
        | none => exact ih h2
        | some inner' =>
          simp only at h
          cases h3 : setValue c k inner' with
          | error e => rw [h3] at h; cases h
          | ok x => rw [h3] at h; cases h

/-- **C186.** What has been removed by its name is gone. -/
theorem removed_is_gone {J : Codec} (hJ : Faithful J) (m m' : Map) (k : Key) (p : Path) (hk : Means k p) (s : List Char)
    (hlast : p.getLast? = some (.name s)) (h : m.remove J k true = .ok m') : m'.get J k true = .ok none := by
  obtain ⟨hp, t, rest, rfl, ht⟩ := hk
  rcases remove_ok h hp ht with ⟨rfl, rfl⟩ | ⟨hr, root, h1, ⟨h2, rfl⟩ | ⟨root', x, h2, h3, rfl⟩⟩
  · rw [get_eq J _ hp ht, if_pos rfl, find_drop_same]
  · rw [get_eq J _ hp ht, if_neg hr, h1]
    simp only [Except.map]
    rw [removeAt_none h2]
    rfl
  · obtain ⟨y, hy1, hy2⟩ := fromJson_get hJ x
    rw [get_eq J _ hp ht, if_neg hr, get_put m k.ns t _ hy1]
    have hl : (Paths.Key.name t :: rest).getLast (by simp) = .name s := by
      rw [List.getLast?_eq_some_getLast (by simp)] at hlast
      simpa using hlast
    have hg := (removeAt_name h2 hl).1
    rw [getForPath_cons, h3] at hg
    simp only [Option.bind_some] at hg
    rw [hy2 rest hr, hg]
    · rfl
    · rintro c rfl rfl
      rw [getForPath_cons] at hg
      have : step (.struct [("secure", .str c)]) (.name "secure".toList) = some (.str c) := step_root _ _
      rw [this] at hg
      cases hg

theorem removeAt_struct {c : W} {k : Paths.Key} {k' : Paths.Key} {rest : Path} {root' x : W}
    (h2 : removeAt c k (k' :: rest) = .ok (some root')) (h3 : step root' k = some x) :
    ∃ inner, step c k = some inner ∧ removeAt inner k' rest = .ok (some x) := by
  obtain ⟨inner, inner', a, b, d⟩ := removeAt_cons h2
  rw [(setValue_step d).1] at h3
  cases h3
  exact ⟨inner, a, b⟩

/-- **C186.** Removing something by its name changes nothing elsewhere. -/
theorem remove_changes_nothing_else {J : Codec} (hJ : Faithful J) (m m' : Map) (k q : Key) (p : Path) (hk : Means k p) (s : List Char)
    (hlast : p.getLast? = some (.name s)) (h : m.remove J k true = .ok m') (hq : Elsewhere k q) :
    m'.get J q true = m.get J q true := by
  rcases means_or_bad q with ⟨t, u, hq1, ht⟩ | hbad
  · obtain ⟨hp, n, rest, rfl, hn⟩ := hk
    rcases remove_ok h hp hn with ⟨rfl, rfl⟩ | ⟨hr, root, h1, ⟨h2, rfl⟩ | ⟨root', x, h2, h3, rfl⟩⟩
    · rcases elsewhere_ne hq hp hq1 with hne | ⟨_, _, ha⟩
      · rw [get_eq J _ hq1 ht, get_eq J _ hq1 ht, find_drop_other hne]
        unfold rootOf
        rw [find_drop_other hne]
      · exact absurd rfl (not_apart_nil ha).1
    · rfl
    · rcases elsewhere_ne hq hp hq1 with hne | ⟨hns, rfl, ha⟩
      · exact get_put_other m _ _ hq1 ht hne
      · have hu := (not_apart_nil ha).2
        obtain ⟨y, hy1, hy2⟩ := fromJson_get hJ x
        rw [get_eq J _ hq1 ht, get_eq J _ hq1 ht, if_neg hu, if_neg hu, hns, get_put m k.ns t _ hy1, h1]
        simp only [Except.map]
        congr 2
        have hp' : Apart (.name t :: rest) (.name t :: u) := by
          refine ⟨fun ⟨z, hz⟩ => ha.1 ⟨z, ?_⟩, fun ⟨z, hz⟩ => ha.2 ⟨z, ?_⟩⟩
          · simpa using hz
          · simpa using hz
        have hl : (Paths.Key.name t :: rest).getLast (by simp) = .name s := by
          rw [List.getLast?_eq_some_getLast (by simp)] at hlast
          simpa using hlast
        have hg := (removeAt_name h2 hl).2 _ hp'
        rw [getForPath_cons, h3] at hg
        simp only [Option.bind_some] at hg
        rw [← hg]
        refine hy2 u hu ?_
        rintro c rfl rfl
        cases rest with
        | nil => exact hr rfl
        | cons k' rest =>
          obtain ⟨inner, _, hb⟩ := removeAt_struct h2 h3
          obtain ⟨rfl, _⟩ := removeAt_secure hb
          exact ha.2 ⟨rest, rfl⟩
  · exact get_bad J m _ q hbad

/-- **C186.** If an element of a list has been removed, those after it move up, and everything else in the list is as it was. -/
theorem removed_elements_close_up {J : Codec} (hJ : Faithful J) (m m' : Map) (k q q' : Key) (p rest : Path) (i j : Int)
    (hk : Means k (p ++ [.idx i])) (h : m.remove J k true = .ok m') (hfound : m.get J k true ≠ .ok none)
    (hq : Paths.parse q.name.toList = .ok (p ++ .idx j :: rest)) (hns : q.ns = k.ns) (hns' : q'.ns = k.ns)
    (hq' : Paths.parse q'.name.toList = .ok (p ++ .idx (if j < i then j else j + 1) :: rest)) :
    m'.get J q true = m.get J q' true := by
  obtain ⟨hp, n, r, hpn, hn⟩ := hk
  cases p with
  | nil =>
    simp only [List.nil_append, List.cons.injEq] at hpn
    cases hpn.1
  | cons x p =>
    simp only [List.cons_append, List.cons.injEq] at hpn
    obtain ⟨rfl, rfl⟩ := hpn
    rw [List.cons_append] at hp hq hq'
    have hr : p ++ [Paths.Key.idx i] ≠ [] := by simp
    have hu : p ++ Paths.Key.idx j :: rest ≠ [] := by simp
    have hu' : p ++ Paths.Key.idx (if j < i then j else j + 1) :: rest ≠ [] := by simp
    rcases remove_ok h hp hn with ⟨e, _⟩ | ⟨_, root, h1, ⟨h2, rfl⟩ | ⟨root', x, h2, h3, rfl⟩⟩
    · exact absurd e hr
    · exfalso
      apply hfound
      rw [get_eq J _ hp hn, if_neg hr, h1]
      simp only [Except.map]
      rw [removeAt_none h2]
      rfl
    · obtain ⟨y, hy1, hy2⟩ := fromJson_get hJ x
      rw [get_eq J _ hq hn, get_eq J _ hq' hn, if_neg hu, if_neg hu', hns, hns', get_put m k.ns n _ hy1, h1]
      simp only [Except.map]
      congr 2
      have hg := (removeAt_idx h2 (p := .name n :: p) rfl).1 (.idx j) rest
      have hb : before i (.idx j) = .idx (if j < i then j else j + 1) := by
        unfold before
        simp only
        split <;> rfl
      rw [hb, List.cons_append, List.cons_append, getForPath_cons, h3] at hg
      simp only [Option.bind_some] at hg
      rw [← hg]
      refine hy2 _ hu ?_
      intro c _ e
      cases p with
      | nil => cases e
      | cons z p => simp at e

/-- **C186.** Removing an element of a list changes nothing outside of the list. -/
theorem removed_elements_change_nothing_else {J : Codec} (hJ : Faithful J) (m m' : Map) (k q : Key) (p : Path) (i : Int)
    (hk : Means k (p ++ [.idx i])) (h : m.remove J k true = .ok m')
    (hq : q.ns ≠ k.ns ∨ ∀ p', Paths.parse q.name.toList = .ok p' → Apart p p') :
    m'.get J q true = m.get J q true := by
  rcases means_or_bad q with ⟨t, u, hq1, ht⟩ | hbad
  · obtain ⟨hp, n, r, hpn, hn⟩ := hk
    cases p with
    | nil =>
      simp only [List.nil_append, List.cons.injEq] at hpn
      cases hpn.1
    | cons x p =>
      simp only [List.cons_append, List.cons.injEq] at hpn
      obtain ⟨rfl, rfl⟩ := hpn
      rw [List.cons_append] at hp
      have hr : p ++ [Paths.Key.idx i] ≠ [] := by simp
      rcases remove_ok h hp hn with ⟨e, _⟩ | ⟨_, root, h1, ⟨h2, rfl⟩ | ⟨root', x, h2, h3, rfl⟩⟩
      · exact absurd e hr
      · rfl
      · by_cases hne : Key.mk q.ns (String.ofList t) = ⟨k.ns, String.ofList n⟩
        · simp only [Key.mk.injEq] at hne
          obtain ⟨hns, hte⟩ := hne
          cases ofList_inj hte
          have ha := (hq.resolve_left fun e => e hns) _ hq1
          have hau : Apart p u := (apart_cons ha).resolve_left (fun e => e rfl) |>.2
          have hu := (not_apart_nil hau).2
          obtain ⟨y, hy1, hy2⟩ := fromJson_get hJ x
          rw [get_eq J _ hq1 ht, get_eq J _ hq1 ht, if_neg hu, if_neg hu, hns, get_put m k.ns t _ hy1, h1]
          simp only [Except.map]
          congr 2
          have hg := (removeAt_idx h2 (p := .name t :: p) rfl).2 _ ha
          rw [getForPath_cons, h3] at hg
          simp only [Option.bind_some] at hg
          rw [← hg]
          refine hy2 u hu ?_
          rintro c rfl rfl
          cases p with
          | nil => exact (not_apart_nil hau).1 rfl
          | cons z p =>
            obtain ⟨inner, _, hb⟩ := removeAt_struct h2 h3
            obtain ⟨rfl, _⟩ := removeAt_secure hb
            exact hau.2 ⟨p, rfl⟩
        · exact get_put_other m _ _ hq1 ht hne
  · exact get_bad J m _ q hbad

/-! ## Paths that name nothing -/

/-- **C184** A key that is no path is an error, for reading, for writing and for removing. -/
theorem not_a_path (J : Codec) (m : Map) {k : Key} (v : Value) {e : Paths.PathErr} (h : Paths.parse k.name.toList = .error e) :
    m.get J k true = .error (.path e) ∧ m.set J k v true = .error (.path e) ∧ m.remove J k true = .error (.path e) := by
  have hp : parseKeyPath k = .error (.path e) := by unfold parseKeyPath; rw [h]
  refine ⟨?_, ?_, ?_⟩
  · unfold Map.get; rw [hp]; rfl
  · unfold Map.set; rw [hp]; rfl
  · unfold Map.remove; rw [h]; rfl

/-- **C184** A path that is empty, or that does not start with a name, is an error for reading and for writing; nothing is removed by it. -/
theorem path_without_a_name (J : Codec) (m : Map) {k : Key} (v : Value) {p : Path} (h : Paths.parse k.name.toList = .ok p) :
    (p = [] → m.get J k true = .error .noPath ∧ m.set J k v true = .error .noPath ∧ m.remove J k true = .ok m) ∧
    (∀ i q, p = .idx i :: q → m.get J k true = .error .notName ∧ m.set J k v true = .error .notName ∧ m.remove J k true = .ok m) ∧
    (∀ q, p = .name [] :: q → m.get J k true = .error .emptyName ∧ m.set J k v true = .error .emptyName ∧ m.remove J k true = .ok m) := by
  refine ⟨?_, ?_, ?_⟩
  · rintro rfl
    have hp : parseKeyPath k = .error .noPath := by unfold parseKeyPath; rw [h]
    exact ⟨by unfold Map.get; rw [hp]; rfl, by unfold Map.set; rw [hp]; rfl, by unfold Map.remove; rw [h]; rfl⟩
  · rintro i q rfl
    have hp : parseKeyPath k = .error .notName := by unfold parseKeyPath; rw [h]
    exact ⟨by unfold Map.get; rw [hp]; rfl, by unfold Map.set; rw [hp]; rfl, by unfold Map.remove; rw [h]; rfl⟩
  · rintro q rfl
    have hp : parseKeyPath k = .error .emptyName := by unfold parseKeyPath; rw [h]; rfl
    exact ⟨by unfold Map.get; rw [hp]; rfl, by unfold Map.set; rw [hp]; rfl, by unfold Map.remove; rw [h]; rfl⟩

example : Paths.parse "[0].a".toList = .ok [.idx 0, .name ['a']] ∧ Paths.parse "".toList = .ok [] ∧ (Paths.parse "a[".toList).toOption = none := ⟨by rfl, by rfl, by rfl⟩

end Pulumi.ConfigMap
