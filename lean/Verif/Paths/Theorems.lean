import Verif.Paths.Tree
/-!
# What paths say, and what `replaceOnChanges` replaces
-/
namespace Pulumi.Paths
open Pulumi.Engine (EV)

instance decParsed : DecidableEq (Except PathErr Path)
  | .ok a, .ok b => if h : a = b then .isTrue (by rw [h]) else .isFalse (by intro he; cases he; exact h rfl)
  | .error a, .error b => if h : a = b then .isTrue (by rw [h]) else .isFalse (by intro he; cases he; exact h rfl)
  | .ok _, .error _ => .isFalse (by intro h; cases h)
  | .error _, .ok _ => .isFalse (by intro h; cases h)

/-! ## writing paths down and reading them -/

theorem parse_rest_append : ∀ (ks : Path) (t : Text), (∀ k ∈ ks, Printable k) → Boundary t →
    parse ((ks.map (keyText false)).flatten ++ t) = (parse t).map (ks ++ ·) := by
  intro ks
  induction ks with
  | nil => intro t _ _; simp only [List.map_nil, List.flatten_nil, List.nil_append]; cases parse t <;> rfl
  | cons k ks ih =>
    intro t h ht
    simp only [List.map_cons, List.flatten_cons, List.append_assoc]
    have hb : Boundary ((ks.map (keyText false)).flatten ++ t) := by
      cases ks with
      | nil => simpa using ht
      | cons j ks => simp only [List.map_cons, List.flatten_cons, List.append_assoc]; exact keyText_boundary j _
    rw [parse_keyText false k _ (h k (by simp)) hb, ih t (fun j hj => h j (by simp [hj])) ht]
    cases parse t <;> rfl

/-- what follows a path that was written down is read as what follows it -/
theorem path_continues (p : Path) (t : Text) (hp : ∀ k ∈ p, Printable k) (ht : Boundary t) :
    parse (pathText p ++ t) = (parse t).map (p ++ ·) := by
  cases p with
  | nil => simp only [pathText, List.nil_append]; cases parse t <;> rfl
  | cons k ks =>
    simp only [pathText, List.append_assoc]
    have hb : Boundary ((ks.map (keyText false)).flatten ++ t) := by
      cases ks with
      | nil => simpa using ht
      | cons j ks => simp only [List.map_cons, List.flatten_cons, List.append_assoc]; exact keyText_boundary j _
    rw [parse_keyText true k _ (hp k (by simp)) hb, parse_rest_append ks t (fun j hj => hp j (by simp [hj])) ht]
    cases parse t <;> rfl

/-- A path that is written down is read back as it was. -/
theorem path_round_trip (p : Path) (hp : ∀ k ∈ p, Printable k) : parse (pathText p) = .ok p := by
  have := path_continues p [] hp (.inl rfl)
  simpa [parse_nil, Except.map] using this

example : parse (pathText [.name "tags".toList, .name "a.b\"c\\d".toList, .idx 2, .idx (-1), .name "*".toList]) =
    .ok [.name "tags".toList, .name "a.b\"c\\d".toList, .idx 2, .idx (-1), .name "*".toList] := by
  apply path_round_trip
  intro k hk
  simp only [List.mem_cons, List.not_mem_nil, or_false] at hk
  rcases hk with rfl | rfl | rfl | rfl | rfl <;> simp only [Printable] <;> decide

/-- so different paths are written differently -/
theorem path_text_injective (p q : Path) (hp : ∀ k ∈ p, Printable k) (hq : ∀ k ∈ q, Printable k) (h : pathText p = pathText q) :
    p = q := by
  have h1 := path_round_trip p hp
  rw [h, path_round_trip q hq] at h1
  cases h1; rfl

example : pathText [.name "a".toList, .name "b".toList] ≠ pathText [.name "a.b".toList] := by decide

/-- An empty name is lost, and one that ends with a backslash makes the text unreadable: `Printable` is needed. -/
theorem unprintable_names_lost : parse (pathText [.name "a".toList, .name [], .name "b".toList]) = .ok [.name "a".toList, .name "b".toList] ∧
    parse (pathText [.name "a\\".toList]) = .error .missingQuote ∧
    parse (pathText [.name "a\\".toList, .name "b ".toList]) = .error .missingBracket := by decide +kernel

/-- `.*`, `[*]` and `["*"]` all say the wildcard, after any path -/
theorem wildcard_spellings (p : Path) (hp : ∀ k ∈ p, Printable k) :
    parse (pathText p ++ ".*".toList) = .ok (p ++ [.name ['*']]) ∧
    parse (pathText p ++ "[*]".toList) = .ok (p ++ [.name ['*']]) ∧
    parse (pathText p ++ "[\"*\"]".toList) = .ok (p ++ [.name ['*']]) := by
  refine ⟨?_, ?_, ?_⟩
  · rw [path_continues p ".*".toList hp (.inr ⟨'.', ['*'], rfl, .inl rfl⟩)]
    rw [show parse ".*".toList = .ok [.name ['*']] by decide]; rfl
  · rw [path_continues p "[*]".toList hp (.inr ⟨'[', "*]".toList, rfl, .inr rfl⟩)]
    rw [show parse "[*]".toList = .ok [.name ['*']] by decide]; rfl
  · rw [path_continues p "[\"*\"]".toList hp (.inr ⟨'[', "\"*\"]".toList, rfl, .inr rfl⟩)]
    rw [show parse "[\"*\"]".toList = .ok [.name ['*']] by decide]; rfl

example : parse "a.b[3][*]".toList = .ok [.name "a".toList, .name "b".toList, .idx 3, .name ['*']] := by decide +kernel

/-- a plain name can be quoted or not -/
theorem quotes_optional (p : Path) (n : Text) (hp : ∀ k ∈ p, Printable k) (hn : n ≠ []) (hplain : n.any requiresQuote = false) :
    parse (pathText p ++ '.' :: n) = .ok (p ++ [.name n]) ∧ parse (pathText p ++ ('[' :: '"' :: (n ++ ['"', ']']))) = .ok (p ++ [.name n]) := by
  have hnb : ∀ c ∈ n, requiresQuote c = false := fun c hc => by
    cases hr : requiresQuote c with
    | false => rfl
    | true => rw [List.any_eq_true.2 ⟨c, hc, hr⟩] at hplain; cases hplain
  have hlast : n.getLast? ≠ some '\\' := by
    intro h
    exact absurd (hnb _ (List.mem_of_getLast? h)) (by decide)
  have hesc : ∀ m : Text, (∀ c ∈ m, requiresQuote c = false) → escape m = m := by
    intro m
    induction m with
    | nil => intro _; rfl
    | cons c m ih =>
      intro h
      unfold escape
      rw [if_neg (by rintro rfl; exact absurd (h '"' (by simp)) (by decide)), ih (fun d hd => h d (by simp [hd]))]
  constructor
  · have := path_round_trip (p ++ [.name n]) (by
      intro k hk
      rcases List.mem_append.1 hk with h | h
      · exact hp k h
      · cases List.mem_singleton.1 h; exact ⟨hn, hlast⟩)
    rw [path_continues p _ hp (.inr ⟨'.', n, rfl, .inl rfl⟩)]
    have h1 := parse_keyText false (.name n) [] ⟨hn, hlast⟩ (.inl rfl)
    simp only [keyText, hplain, Bool.false_eq_true, if_false, List.append_nil] at h1
    rw [h1]; rfl
  · rw [path_continues p _ hp (.inr ⟨'[', _, rfl, .inr rfl⟩)]
    rw [parse_bracket_ok (k := .name n) (rest := [])]
    · rfl
    · unfold bracket
      simp only [if_true]
      unfold quotedElement
      have := quotedKey_escape n [']'] hlast
      rw [hesc n hnb] at this
      rw [this]; simp

example : "region".toList ≠ [] ∧ "region".toList.any requiresQuote = false := by decide

/-- a dot more or less before a key makes no difference -/
theorem dots_tolerated (p : Path) (t : Text) (hp : ∀ k ∈ p, Printable k) (ht : Boundary t) :
    parse (pathText p ++ '.' :: t) = parse (pathText p ++ t) := by
  rw [path_continues p _ hp (.inr ⟨'.', t, rfl, .inl rfl⟩), path_continues p t hp ht, parse_dot]

/-- An index that does not fit 64 bits or is not a number, an unclosed bracket or quote: no path -/
theorem bad_paths : parse "a[9223372036854775808]".toList = .error .badIndex ∧ parse "a[x]".toList = .error .badIndex ∧
    parse "a[]".toList = .error .badIndex ∧ parse "a[1".toList = .error .missingIndexBracket ∧
    parse "a[\"b".toList = .error .missingQuote ∧ parse "a[\"b\".c".toList = .error .missingBracket ∧
    parse "a[-9223372036854775808]".toList = .ok [.name "a".toList, .idx (-9223372036854775808)] ∧
    parse "a[+1]".toList = .ok [.name "a".toList, .idx 1] := by decide +kernel

/-! ## which path covers which -/

/-- `Contains` is covering: the keys of the first are those of the second, as far as they go, with `*` for any. -/
theorem contains_iff (p q : Path) : contains p q = true ↔ Covers p q := contains_covers p q

example : contains [.name "a".toList, .name ['*']] [.name "a".toList, .idx 3, .name "c".toList] = true ∧
    contains [.name "a".toList, .idx 3] [.name "a".toList, .name ['*']] = false := by decide

theorem covers_refl (p : Path) : Covers p p := ⟨Nat.le_refl _, fun _ _ => .inr rfl⟩

theorem covers_trans {p q r : Path} (h1 : Covers p q) (h2 : Covers q r) : Covers p r := by
  refine ⟨Nat.le_trans h1.1 h2.1, ?_⟩
  intro i hi
  rcases h1.2 i hi with h | h
  · exact .inl h
  · rcases h2.2 i (Nat.lt_of_lt_of_le hi h1.1) with h' | h'
    · exact .inl (h.trans h')
    · exact .inr (h.trans h')

/-- `*` alone covers every path but the empty one -/
theorem star_covers (q : Path) : Covers [.name ['*']] q ↔ q ≠ [] := by
  constructor
  · rintro ⟨h, _⟩ rfl; simp at h
  · intro h
    refine ⟨by cases q <;> simp_all, ?_⟩
    intro i hi
    left
    have : i = 0 := by simpa using hi
    subst this; rfl

/-- without wildcards, covering is leading to -/
theorem covers_prefix (p q : Path) (hp : Key.name ['*'] ∉ p) : Covers p q ↔ p <+: q := by
  rw [List.prefix_iff_getElem?]
  constructor
  · rintro ⟨_, h⟩ i hi
    rcases h i hi with h' | h'
    · exact absurd (List.mem_of_getElem? h') hp
    · rw [← h', List.getElem?_eq_getElem hi]
  · intro h
    refine ⟨?_, ?_⟩
    · cases Nat.lt_or_ge q.length p.length with
      | inl hlt =>
        have := h q.length hlt
        rw [List.getElem?_eq_none (Nat.le_refl _)] at this; cases this
      | inr hge => exact hge
    · intro i hi
      right
      rw [h i hi, List.getElem?_eq_getElem hi]

example : Covers [.name "a".toList] [.name "a".toList, .idx 0] := (covers_prefix _ _ (by decide)).2 ⟨[.idx 0], rfl⟩

/-! ## reading and changing values -/

/-- What `Set` sets is what `Get` gets, and nothing apart from it changes. -/
theorem set_then_get (p : Path) (v t t' : EV) (h : setAt p v t = some t') :
    get p t' = some v ∧ ∀ q, Apart p q → get q t' = get q t :=
  ⟨set_get h, fun q hq => change_apart (local_put v) p q t t' h hq⟩

/-- What `Delete` deletes is gone, or null in an array, and nothing apart from it changes. -/
theorem delete_then_get (p : Path) (t t' : EV) (h : deleteAt p t = some t') :
    Gone p (get p t') ∧ ∀ q, Apart p q → get q t' = get q t :=
  ⟨delete_get h, fun q hq => change_apart local_drop p q t t' h hq⟩

/-- `Set` works exactly when all but the last key lead to something that the last can be a key of: an object, or an array that
is long enough. `Delete` too, whether there is something to delete or not. -/
theorem set_works_iff (q : Path) (k : Key) (v t : EV) :
    ((∃ t', setAt (q ++ [k]) v t = some t') ↔ ∃ d, get q t = some d ∧ Accepts d k) ∧
    ((∃ t', deleteAt (q ++ [k]) t = some t') ↔ ∃ d, get q t = some d ∧ Accepts d k) :=
  ⟨change_some (local_put v) k q t, change_some local_drop k q t⟩

/-- neither works on the empty path -/
theorem empty_path_unset (v t : EV) : setAt [] v t = none ∧ deleteAt [] t = none := ⟨rfl, rfl⟩

/-- setting what is there already changes nothing -/
theorem set_same (p : Path) (v t t' : EV) (h : setAt p v t = some t') (hg : get p t = some v) : t' = t := set_noop h hg

/-- a value with some depth, for the examples -/
def sample : EV := .object [("a", .object [("b", .num 1), ("c", .array [.str "x", .str "y"])]), ("s", .secret (.object [("k", .num 2)]))]

example : setAt [.name "a".toList, .name "c".toList, .idx 1] (.num 7) sample =
    some (.object [("a", .object [("b", .num 1), ("c", .array [.str "x", .num 7])]), ("s", .secret (.object [("k", .num 2)]))]) := by rfl

example : deleteAt [.name "a".toList, .name "c".toList, .idx 0] sample =
    some (.object [("a", .object [("b", .num 1), ("c", .array [.null, .str "y"])]), ("s", .secret (.object [("k", .num 2)]))]) := by rfl

example : setAt [.name "a".toList, .name "c".toList, .idx 2] (.num 7) sample = none := by rfl

/-- nothing inside a secret is found by a path, and nothing can be put there -/
theorem secrets_opaque (v w : EV) (k : Key) (ks : Path) : get (k :: ks) (.secret v) = none ∧ setAt (k :: ks) w (.secret v) = none := by
  have hs : step (.secret v) k = none := by cases k <;> rfl
  constructor
  · rw [get_cons, hs]; rfl
  · cases ks with
    | nil => cases k <;> rfl
    | cons j ks => unfold setAt; rw [change_cons2, hs]; rfl

/-! ## `replaceOnChanges` -/

theorem parseAll_ok : ∀ (opts : List Text) (paths : List Path), parseAll opts = .ok paths →
    ∀ q, paths.any (contains · q) = true ↔ ∃ o ∈ opts, ∃ p, parse o = .ok p ∧ Covers p q := by
  intro opts
  induction opts with
  | nil => intro paths h q; cases h; simp
  | cons o opts ih =>
    intro paths h q
    unfold parseAll at h
    cases ho : parse o with
    | error e => rw [ho] at h; cases h
    | ok p =>
      rw [ho] at h
      cases hr : parseAll opts with
      | error e => rw [hr] at h; cases h
      | ok ps =>
        rw [hr] at h; cases h
        simp only [List.any_cons, Bool.or_eq_true, ih ps hr q, contains_covers, List.mem_cons, exists_eq_or_imp, ho, Except.ok.injEq,
          exists_eq_left']

theorem parseAll_error (opts : List Text) : (∃ e, parseAll opts = .error e) ↔ ∃ o ∈ opts, ∃ e, parse o = .error e := by
  induction opts with
  | nil => simp [parseAll]
  | cons o opts ih =>
    unfold parseAll
    cases ho : parse o with
    | error e => simp [ho]
    | ok p =>
      simp only [List.mem_cons, exists_eq_or_imp, ho, reduceCtorEq, exists_false, false_or, ← ih]
      cases parseAll opts <;> simp [Except.map]

theorem keyCovered_iff {opts : List Text} {paths : List Path} (h : parseAll opts = .ok paths) (k : Text) :
    keyCovered paths k = true ↔ Asked opts k := by
  unfold keyCovered Asked
  cases hk : parse k with
  | error e => simp
  | ok q =>
    simp only [parseAll_ok opts paths h q, Except.ok.injEq]
    constructor
    · rintro ⟨o, ho, p, hp, hc⟩; exact ⟨o, ho, p, q, hp, rfl, hc⟩
    · rintro ⟨o, ho, p, q', hp, rfl, hc⟩; exact ⟨o, ho, p, hp, hc⟩

theorem adjust_ok {opts : List Text} {paths : List Path} (h : parseAll opts = .ok paths) : ∀ (dd dd' : List (Text × PropertyDiff)),
    adjustDetailed paths dd = .ok dd' →
    dd'.map Prod.fst = dd.map Prod.fst ∧
    ∀ (i : Nat) (k : Text) (d : PropertyDiff), dd[i]? = some (k, d) →
      (Asked opts k → dd'[i]? = some (k, d.toReplace)) ∧ (¬ Asked opts k → dd'[i]? = some (k, d)) := by
  intro dd
  induction dd with
  | nil => intro dd' hd; cases hd; simp
  | cons kd dd ih =>
    obtain ⟨k, d⟩ := kd
    intro dd' hd
    unfold adjustDetailed at hd
    cases hk : parse k with
    | error e => rw [hk] at hd; cases hd
    | ok q =>
      rw [hk] at hd
      simp only at hd
      cases hr : adjustDetailed paths dd with
      | error e => rw [hr] at hd; cases hd
      | ok rest =>
        rw [hr] at hd; cases hd
        obtain ⟨h1, h2⟩ := ih rest hr
        refine ⟨by simp [h1], ?_⟩
        intro i k' d' hi
        cases i with
        | zero =>
          simp only [List.getElem?_cons_zero, Option.some.injEq, Prod.mk.injEq] at hi
          obtain ⟨rfl, rfl⟩ := hi
          have hc := keyCovered_iff h k
          unfold keyCovered at hc
          rw [hk] at hc
          simp only at hc
          constructor
          · intro ha; simp [hc.2 ha]
          · intro ha
            have : ¬ (paths.any (contains · q) = true) := fun hx => ha (hc.1 hx)
            simp [this]
        | succ i => simpa using h2 i k' d' (by simpa using hi)

theorem adjust_error (paths : List Path) (dd : List (Text × PropertyDiff)) :
    (∃ e, adjustDetailed paths dd = .error e) ↔ ∃ kd ∈ dd, ∃ e, parse kd.1 = .error e := by
  induction dd with
  | nil => simp [adjustDetailed]
  | cons kd dd ih =>
    obtain ⟨k, d⟩ := kd
    unfold adjustDetailed
    cases hk : parse k with
    | error e => simp [hk]
    | ok p =>
      simp only [List.mem_cons, exists_eq_or_imp, hk, reduceCtorEq, exists_false, false_or, ← ih]
      cases adjustDetailed paths dd <;> simp [Except.map]

theorem isReplace_toReplace (d : PropertyDiff) : d.toReplace.kind.isReplace = true := by
  cases d with
  | mk k i => cases k <;> rfl

theorem adjust_any {opts : List Text} {paths : List Path} (h : parseAll opts = .ok paths) {dd dd' : List (Text × PropertyDiff)}
    (hd : adjustDetailed paths dd = .ok dd') :
    dd'.any (fun kv => kv.2.kind.isReplace) = true ↔ dd.any (fun kv => kv.2.kind.isReplace) = true ∨ ∃ kd ∈ dd, Asked opts kd.1 := by
  obtain ⟨hlen, hat⟩ := adjust_ok h dd dd' hd
  have hlen' : dd'.length = dd.length := by simpa using congrArg List.length hlen
  rw [List.any_eq_true, List.any_eq_true]
  constructor
  · rintro ⟨kv, hkv, hr⟩
    obtain ⟨i, hi⟩ := List.getElem?_of_mem hkv
    have hil : i < dd.length := by rw [← hlen']; exact (List.getElem?_eq_some_iff.1 hi).1
    have hkd : dd[i]? = some ((dd[i]).1, (dd[i]).2) := List.getElem?_eq_getElem hil
    by_cases ha : Asked opts (dd[i]).1
    · exact .inr ⟨dd[i], List.getElem_mem hil, ha⟩
    · left
      have := (hat i _ _ hkd).2 ha
      rw [hi] at this; cases this
      exact ⟨dd[i], List.getElem_mem hil, hr⟩
  · rintro (⟨kv, hkv, hr⟩ | ⟨kd, hkd, ha⟩)
    · obtain ⟨i, hi⟩ := List.getElem?_of_mem hkv
      by_cases ha : Asked opts kv.1
      · exact ⟨_, List.mem_of_getElem? ((hat i kv.1 kv.2 hi).1 ha), isReplace_toReplace _⟩
      · exact ⟨_, List.mem_of_getElem? ((hat i kv.1 kv.2 hi).2 ha), hr⟩
    · obtain ⟨i, hi⟩ := List.getElem?_of_mem hkd
      exact ⟨_, List.mem_of_getElem? ((hat i kd.1 kd.2 hi).1 ha), isReplace_toReplace _⟩

theorem putDetail_any (k : Text) (d : PropertyDiff) (hd : d.kind.isReplace = true) : ∀ dd : List (Text × PropertyDiff),
    (putDetail k d dd).any (fun kv => kv.2.kind.isReplace) = true := by
  intro dd
  induction dd with
  | nil => simp [putDetail, hd]
  | cons kd dd ih =>
    unfold putDetail
    by_cases hk : kd.1 = k
    · rw [if_pos hk]; simp [hd]
    · rw [if_neg hk]; simp [ih]

/-- the parts of `applyReplaceOnChanges` when it has work to do -/
theorem apply_parts {diff r : DiffResult} {opts : List Text} {ie : Bool} (h : applyReplaceOnChanges diff opts ie = .ok r)
    (hw : diff.changes = .some ∨ ie = true) :
    ∃ paths modified, parseAll opts = .ok paths ∧
      ((diff.detailed = none ∧ modified = none) ∨ ∃ dd dd', diff.detailed = some dd ∧ adjustDetailed paths dd = .ok dd' ∧ modified = some dd') ∧
      ((ie = true ∧ keyCovered paths initErrorKey = true ∧
        r = { diff with
          detailed := modified.map (putDetail initErrorKey { kind := .updateReplace, inputDiff := false })
          replaceKeys := (diff.replaceKeys ++ diff.changedKeys.filter (keyCovered paths)) ++ [initErrorKey]
          changes := .some }) ∨
       (¬ (ie = true ∧ keyCovered paths initErrorKey = true) ∧
        r = { diff with detailed := modified, replaceKeys := diff.replaceKeys ++ diff.changedKeys.filter (keyCovered paths) })) := by
  unfold applyReplaceOnChanges at h
  rw [if_neg (by rintro ⟨h1, h2⟩; rcases hw with h3 | h3; exact h1 h3; rw [h2] at h3; cases h3)] at h
  cases hp : parseAll opts with
  | error e => rw [hp] at h; cases h
  | ok paths =>
    rw [hp] at h
    simp only at h
    refine ⟨paths, ?_⟩
    cases hdd : diff.detailed with
    | none =>
      rw [hdd] at h
      simp only at h
      refine ⟨none, rfl, .inl ⟨rfl, rfl⟩, ?_⟩
      by_cases hi : ie = true ∧ keyCovered paths initErrorKey = true
      · rw [if_pos hi] at h; cases h
        exact .inl ⟨hi.1, hi.2, rfl⟩
      · rw [if_neg hi] at h; cases h
        exact .inr ⟨hi, rfl⟩
    | some dd =>
      rw [hdd] at h
      simp only at h
      cases ha : adjustDetailed paths dd with
      | error e => rw [ha] at h; cases h
      | ok dd' =>
        rw [ha] at h
        simp only [Except.map] at h
        refine ⟨some dd', rfl, .inr ⟨dd, dd', rfl, ha, rfl⟩, ?_⟩
        by_cases hi : ie = true ∧ keyCovered paths initErrorKey = true
        · rw [if_pos hi] at h; cases h
          exact .inl ⟨hi.1, hi.2, rfl⟩
        · rw [if_neg hi] at h; cases h
          exact .inr ⟨hi, rfl⟩

/-- **Exactly when a resource is replaced**: the provider says so, or the path of a change or a changed key is covered by one of
the `replaceOnChanges` — or the resource failed to initialize last time and they cover `#initerror`, which `*` does. -/
theorem replaced_exactly (diff r : DiffResult) (opts : List Text) (ie : Bool) (h : applyReplaceOnChanges diff opts ie = .ok r) :
    Replaces r ↔
      (diff.changes = .some ∧ (diff.replace = true ∨ (∃ kd ∈ details diff, Asked opts kd.1) ∨ ∃ k ∈ diff.changedKeys, Asked opts k)) ∨
      (ie = true ∧ Asked opts initErrorKey) := by
  by_cases hw : diff.changes = .some ∨ ie = true
  · obtain ⟨paths, modified, hp, hm, hr⟩ := apply_parts h hw
    have hkeys : ∀ k : Text, (keyCovered paths k = true ↔ Asked opts k) := keyCovered_iff hp
    rcases hr with ⟨hie, hc, rfl⟩ | ⟨hn, rfl⟩
    · constructor
      · intro _; exact .inr ⟨hie, (hkeys _).1 hc⟩
      · intro _
        refine ⟨rfl, ?_⟩
        unfold DiffResult.replace
        simp
    · have hn' : ¬ (ie = true ∧ Asked opts initErrorKey) := by
        rintro ⟨h1, h2⟩; exact hn ⟨h1, (hkeys _).2 h2⟩
      simp only [hn', or_false]
      unfold Replaces DiffResult.replace details
      simp only [Bool.or_eq_true, Bool.not_eq_true', List.isEmpty_eq_false_iff]
      have hrk : diff.replaceKeys ++ diff.changedKeys.filter (keyCovered paths) ≠ [] ↔
          diff.replaceKeys ≠ [] ∨ ∃ k ∈ diff.changedKeys, Asked opts k := by
        rw [Ne, List.append_eq_nil_iff, List.filter_eq_nil_iff]
        constructor
        · intro hx
          by_cases h1 : diff.replaceKeys = []
          · right
            apply Classical.byContradiction
            intro hno
            apply hx
            refine ⟨h1, ?_⟩
            intro k hk hck
            exact hno ⟨k, hk, (hkeys k).1 hck⟩
          · exact .inl h1
        · rintro (h1 | ⟨k, hk, ha⟩) ⟨h2, h3⟩
          · exact h1 h2
          · exact h3 k hk ((hkeys k).2 ha)
      rw [hrk]
      have hdet : (modified.getD []).any (fun kv => kv.2.kind.isReplace) = true ↔
          (diff.detailed.getD []).any (fun kv => kv.2.kind.isReplace) = true ∨ ∃ kd ∈ diff.detailed.getD [], Asked opts kd.1 := by
        rcases hm with ⟨h1, rfl⟩ | ⟨dd, dd', h1, h2, rfl⟩
        · simp [h1]
        · rw [h1]; exact adjust_any hp h2
      rw [hdet]
      constructor
      · rintro ⟨h1, (h2 | h2) | (h2 | h2)⟩
        · exact ⟨h1, .inl (.inl h2)⟩
        · exact ⟨h1, .inr (.inl h2)⟩
        · exact ⟨h1, .inl (.inr h2)⟩
        · exact ⟨h1, .inr (.inr h2)⟩
      · rintro ⟨h1, (h2 | h2) | (h2 | h2)⟩
        · exact ⟨h1, .inl (.inl h2)⟩
        · exact ⟨h1, .inr (.inl h2)⟩
        · exact ⟨h1, .inl (.inr h2)⟩
        · exact ⟨h1, .inr (.inr h2)⟩
  · have h1 : diff.changes ≠ .some := fun hx => hw (.inl hx)
    have h2 : ie = false := by cases ie with
      | false => rfl
      | true => exact absurd (.inr rfl) hw
    unfold applyReplaceOnChanges at h
    rw [if_pos ⟨h1, h2⟩] at h
    cases h
    simp [Replaces, h1, h2]

def dd (k : String) (kind : Kind) : Text × PropertyDiff := (k.toList, { kind := kind, inputDiff := true })
def sampleDiff : DiffResult :=
  { changes := .some, replaceKeys := [], stableKeys := [], changedKeys := ["size".toList], deleteBeforeReplace := false,
    detailed := some [dd "size" .update, dd "tags.env" .add] }

example : applyReplaceOnChanges sampleDiff ["tags".toList] false =
    .ok { sampleDiff with detailed := some [dd "size" .update, dd "tags.env" .addReplace] } := by rfl

example : applyReplaceOnChanges { sampleDiff with changes := .none, detailed := none } ["*".toList] true =
    .ok { sampleDiff with detailed := none, replaceKeys := ["size".toList, initErrorKey] } := by rfl

/-- a change that is made to replace is still of its kind -/
theorem replacing_keeps_change (d : PropertyDiff) : d.toReplace.kind.isReplace = true ∧ d.toReplace.kind.change = d.kind.change ∧
    d.toReplace.inputDiff = d.inputDiff := by
  cases d with
  | mk k i => cases k <;> exact ⟨rfl, rfl, rfl⟩

/-- What the steps show: every change that `replaceOnChanges` covers is shown as one that replaces, every other as the provider
gave it (unless it is the one for init errors), and nothing else of the diff is touched. -/
theorem changes_shown (diff r : DiffResult) (opts : List Text) (ie : Bool) (h : applyReplaceOnChanges diff opts ie = .ok r)
    (hs : diff.changes = .some) :
    r.stableKeys = diff.stableKeys ∧ r.changedKeys = diff.changedKeys ∧ r.deleteBeforeReplace = diff.deleteBeforeReplace ∧
    r.changes = .some ∧
    (∀ k, k ∈ r.replaceKeys ↔ k ∈ diff.replaceKeys ∨ (k ∈ diff.changedKeys ∧ Asked opts k) ∨
      (k = initErrorKey ∧ ie = true ∧ Asked opts initErrorKey)) ∧
    (ie = false → (details r).map Prod.fst = (details diff).map Prod.fst ∧
      ∀ (i : Nat) (k : Text) (d : PropertyDiff), (details diff)[i]? = some (k, d) →
        (Asked opts k → (details r)[i]? = some (k, d.toReplace)) ∧ (¬ Asked opts k → (details r)[i]? = some (k, d))) := by
  obtain ⟨paths, modified, hp, hm, hr⟩ := apply_parts h (.inl hs)
  have hkeys : ∀ k : Text, (keyCovered paths k = true ↔ Asked opts k) := keyCovered_iff hp
  rcases hr with ⟨hie, hc, rfl⟩ | ⟨hn, rfl⟩
  · refine ⟨rfl, rfl, rfl, rfl, ?_, ?_⟩
    · intro k
      simp only [List.mem_append, List.mem_filter, hkeys, List.mem_singleton, hie, (hkeys _).1 hc, and_true, or_assoc]
    · intro hf; rw [hie] at hf; cases hf
  · refine ⟨rfl, rfl, rfl, hs, ?_, ?_⟩
    · intro k
      simp only [List.mem_append, List.mem_filter, hkeys]
      constructor
      · rintro (h1 | h1)
        · exact .inl h1
        · exact .inr (.inl h1)
      · rintro (h1 | h1 | ⟨_, h2, h3⟩)
        · exact .inl h1
        · exact .inr h1
        · exact absurd ⟨h2, (hkeys _).2 h3⟩ hn
    · intro _
      unfold details
      rcases hm with ⟨h1, rfl⟩ | ⟨dd, dd', h1, h2, rfl⟩
      · simp [h1]
      · simp only [h1, Option.getD_some]
        exact adjust_ok hp dd dd' h2

/-- Exactly when `replaceOnChanges` fails the update: there is something to do, and one of its paths, **or the path of one of the
changes**, is not a path. -/
theorem replace_fails_exactly (diff : DiffResult) (opts : List Text) (ie : Bool) :
    (∃ e, applyReplaceOnChanges diff opts ie = .error e) ↔
      (diff.changes = .some ∨ ie = true) ∧
      ((∃ o ∈ opts, ∃ e, parse o = .error e) ∨ ∃ kd ∈ details diff, ∃ e, parse kd.1 = .error e) := by
  by_cases hw : diff.changes = .some ∨ ie = true
  · simp only [hw, true_and]
    rw [← parseAll_error]
    unfold applyReplaceOnChanges
    rw [if_neg (by rintro ⟨h1, h2⟩; rcases hw with h3 | h3; exact h1 h3; rw [h2] at h3; cases h3)]
    cases hp : parseAll opts with
    | error e => simp
    | ok paths =>
      simp only [reduceCtorEq, exists_false, false_or]
      unfold details
      cases hdd : diff.detailed with
      | none =>
        simp only [Option.getD_none, List.not_mem_nil, false_and, exists_false, iff_false]
        rintro ⟨e, he⟩
        by_cases hi : ie = true ∧ keyCovered paths initErrorKey = true
        · rw [if_pos hi] at he; cases he
        · rw [if_neg hi] at he; cases he
      | some dd =>
        simp only [Option.getD_some]
        rw [← adjust_error paths dd]
        cases ha : adjustDetailed paths dd with
        | error e => simp [Except.map]
        | ok dd' =>
          simp only [Except.map, reduceCtorEq, exists_false, iff_false]
          rintro ⟨e, he⟩
          by_cases hi : ie = true ∧ keyCovered paths initErrorKey = true
          · rw [if_pos hi] at he; cases he
          · rw [if_neg hi] at he; cases he
  · simp only [hw, false_and, iff_false]
    rintro ⟨e, he⟩
    unfold applyReplaceOnChanges at he
    rw [if_pos ⟨fun hx => hw (.inl hx), by cases ie with
      | false => rfl
      | true => exact absurd (.inr rfl) hw⟩] at he
    cases he

/-- **A changed property whose path has an unclosed bracket fails the update, without any `replaceOnChanges`.** -/
theorem odd_key_fails_update : applyReplaceOnChanges
    { sampleDiff with changedKeys := ["tags".toList], detailed := some [dd "tags.a[b" .update] } [] false =
    .error .missingIndexBracket := by rfl

/-- `replaceOnChanges` of something inside a property says nothing when the whole property comes or goes -/
theorem inner_path_misses_outer_change : applyReplaceOnChanges
    { sampleDiff with changedKeys := ["tags".toList], detailed := some [dd "tags" .delete] } ["tags.env".toList] false =
    .ok { sampleDiff with changedKeys := ["tags".toList], detailed := some [dd "tags" .delete] } := by rfl

end Pulumi.Paths
