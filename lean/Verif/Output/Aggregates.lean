import Verif.Output.Unwrap
/-!
# `Output.all`, `from_input`, `secret`, `unsecret`, `concat`, lifted access, monad laws, joins (C05-C08, C11, C41, C42)
-/
namespace Pulumi.Output
open Pulumi.Async

variable {roots : Nat → Option Prog} {d : Config}

/-! ## Views obtained by unwrapping -/

theorem View.ext {w w' : View} (h1 : w.value = w'.value) (h2 : w.known = w'.known) (h3 : w.secret = w'.secret)
    (h4 : ∀ r, w.deps r ↔ w'.deps r) : w = w' := by
  cases w; cases w'
  simp only at *
  subst h1 h2 h3
  congr
  funext r; exact propext (h4 r)

theorem containsUnknownsList_values {ws : List View} (h : ∀ w ∈ ws, containsUnknowns w.value = false) :
    containsUnknownsList (ws.map (·.value)) = false := by
  induction ws with
  | nil => rfl
  | cons w ws ih =>
    simp only [List.map_cons, containsUnknownsList, h w (by simp), Bool.false_or]
    exact ih fun w hw => h w (by simp [hw])

theorem containsUnknownsDict_zip {ws : List View} (h : ∀ w ∈ ws, containsUnknowns w.value = false) (ks : List String) :
    containsUnknownsDict (ks.zip (ws.map (·.value))) = false := by
  induction ks generalizing ws with
  | nil => simp [containsUnknownsDict]
  | cons k ks ih =>
    cases ws with
    | nil => simp [containsUnknownsDict]
    | cons w ws =>
      simp only [List.map_cons, List.zip_cons_cons, containsUnknownsDict, h w (by simp), Bool.false_or]
      exact ih fun w hw => h w (by simp [hw])

/-- A known unwrapped value has no unknown inside. -/
theorem unwraps_known {dry σ n v w} (h : Unwraps dry σ n v w) : w.known = true → containsUnknowns w.value = false := by
  cases h with
  | prompt => simp [View.ofPlain]
  | awaitable => simp [View.after]
  | output => simp [View.after]
  | list => simp [View.aggregate]
  | dict => simp [View.aggregate]
  | input => simp [View.after]
  | inputUnknown => simp

theorem aggregate_list_known {ws : List View} (h : ∀ w ∈ ws, w.known = true → containsUnknowns w.value = false) :
    (View.aggregate ws .list).known = true ↔ ∀ w ∈ ws, w.known = true := by
  simp only [View.aggregate, Bool.and_eq_true, List.all_eq_true]
  constructor
  · intro hh; exact hh.1
  · intro hh
    refine ⟨hh, ?_⟩
    simp only [containsUnknowns]
    rw [containsUnknownsList_values fun w hw => h w hw (hh w hw)]; rfl

theorem aggregate_dict_known {ws : List View} {ks} (h : ∀ w ∈ ws, w.known = true → containsUnknowns w.value = false) :
    (View.aggregate ws (mkDict ks)).known = true ↔ ∀ w ∈ ws, w.known = true := by
  simp only [View.aggregate, Bool.and_eq_true, List.all_eq_true]
  constructor
  · intro hh; exact hh.1
  · intro hh
    refine ⟨hh, ?_⟩
    simp only [mkDict, containsUnknowns]
    rw [containsUnknownsDict_zip fun w hw => h w hw (hh w hw)]; rfl

theorem All2.mem_right {α β : Type} {R : α → β → Prop} {as bs} (h : All2 R as bs) {b} (hb : b ∈ bs) : ∃ a ∈ as, R a b := by
  induction h with
  | nil => simp at hb
  | cons h _ ih =>
    rcases List.mem_cons.1 hb with rfl | hb
    · exact ⟨_, by simp, h⟩
    · obtain ⟨a, ha, hr⟩ := ih hb
      exact ⟨a, by simp [ha], hr⟩

/-! ## A nested value used to show that hypotheses are met -/

/-- A list holding an output, a dict holding the same output, and an input-class instance. -/
def nestedVal (o : OutRef) : Val :=
  .list [.out o, .dict [("k", .out o)], .input "Args" [("x", .int 1)]]

/-- A secret, known output of "s" depending on resource 7. -/
def sampleView : View := { value := .str "s", known := true, secret := true, deps := (· ∈ [7]) }

theorem nested_out {dry σ o n} (h : Shows σ o sampleView) : Unwraps dry σ (n + 2) (.out o) sampleView := by
  have := Unwraps.output (dry := dry) (n := n + 1) h (w := .ofPlain (.str "s")) (by
    simp only [sampleView, Bool.not_true, Bool.and_false, Bool.false_and, Bool.false_eq_true, if_false]
    exact .prompt trivial)
  have he : sampleView.after (.ofPlain (.str "s")) = sampleView := by
    apply View.ext <;> simp [View.after, View.ofPlain, sampleView, containsUnknowns, noDeps]
  rwa [he] at this

theorem nested_unwraps {dry σ o} (h : Shows σ o sampleView) : ∃ w, Unwraps dry σ 4 (nestedVal o) w ∧
    w.value = .list [.str "s", .dict [("k", .str "s")], .input "Args" [("x", .int 1)]] ∧ w.known = true := by
  have h1 : Unwraps dry σ 3 (.out o) sampleView := nested_out h
  have h2 : Unwraps dry σ 3 (.dict [("k", .out o)]) (.aggregate [sampleView] (mkDict ["k"])) := by
    refine .dict (ws := [sampleView]) rfl ?_
    intro k v w hm
    simp at hm
    obtain ⟨⟨rfl, rfl⟩, rfl⟩ := hm
    exact nested_out h
  have h3 : Unwraps dry σ 3 (.input "Args" [("x", .int 1)])
      ((View.aggregate [.ofPlain (.int 1)] (mkDict ["x"])).after (.ofPlain (.input "Args" [("x", .int 1)]))) := by
    refine .input (ws := [.ofPlain (.int 1)]) rfl ?_ (.inr rfl)
    intro k v w hm
    simp at hm
    obtain ⟨⟨rfl, rfl⟩, rfl⟩ := hm
    exact .prompt trivial
  refine ⟨_, .list (ws := [sampleView, .aggregate [sampleView] (mkDict ["k"]),
    (View.aggregate [.ofPlain (.int 1)] (mkDict ["x"])).after (.ofPlain (.input "Args" [("x", .int 1)]))]) rfl ?_, rfl, rfl⟩
  intro v w hm
  simp only [List.zip_cons_cons, List.zip_nil_right, List.mem_cons, List.not_mem_nil, or_false, Prod.mk.injEq] at hm
  rcases hm with ⟨rfl, rfl⟩ | ⟨rfl, rfl⟩ | ⟨rfl, rfl⟩
  · exact h1
  · exact h2
  · exact h3

/-- Running `sample` and then `f` on the output it makes, in a complete execution. -/
theorem sample_then {α : Type} (f : OutRef → Sync α) : ∃ roots d o t n r n', Completes roots d ∧ Shows d.futs o sampleView ∧
    IsOutput d o ∧ Ran d t n (f o) r n' := by
  obtain ⟨d, r, n', hd, hr⟩ := main_ran ((sample (.str "s") true true [7]).bind f)
  have hs := settled_of_completes hd
  rcases hr.bind with ⟨o, m, h1, h2⟩ | ⟨e, h1, _⟩
  · obtain ⟨o', ho, hsh, hi⟩ := sample_ran hs h1
    cases ho
    exact ⟨_, d, o, _, _, r, _, hd, hsh, hi, h2⟩
  · obtain ⟨o', ho, _⟩ := sample_ran hs h1
    simp at ho

/-! ## C06 -/

/-- **C06.** `Output.all(*args)`: the list of the unwrapped values in argument order; known iff all are known, secret iff
any is secret, depending on exactly the union. It never raises. -/
theorem all_args (hd : Completes roots d) {dry fuel n0 args ws t n r n'}
    (h : Ran d t n (outputAll dry fuel args []) r n')
    (hargs : All2 (fun v w => Unwraps dry d.futs n0 v w) args ws) (hfuel : n0 ≤ fuel) :
    ∃ out w, r = .ok out ∧ Shows d.futs out w ∧
      w.value = .list (ws.map (·.value)) ∧
      (w.known = true ↔ ∀ x ∈ ws, x.known = true) ∧
      (w.secret = true ↔ ∃ x ∈ ws, x.secret = true) ∧
      (∀ res, w.deps res ↔ ∃ x ∈ ws, x.deps res) := by
  have hs := settled_of_completes hd
  simp only [outputAll, List.isEmpty_nil, Bool.not_true, Bool.and_false, Bool.false_eq_true, if_false] at h
  have hmem : ∀ x ∈ args, ∀ m r m', Ran d t m (fromInput dry fuel x) r m' → ∃ y, r = .ok y := by
    intro x hx m r m' hr
    obtain ⟨w, hw⟩ := hargs.mem_left hx
    obtain ⟨out, h, _⟩ := fromInput_shows hs _ _ _ _ hw hfuel _ _ _ _ hr
    exact ⟨out, h⟩
  rcases h.bind with ⟨os, m, h1, h2⟩ | ⟨e, h1, _⟩
  · have hall : ShowsAll d.futs os ws := by
      refine (mapS_ran h1).join hargs ?_
      rintro x o w ⟨m, m', hr⟩ hw
      obtain ⟨out, ho, hsh⟩ := fromInput_shows hs _ _ _ _ hw hfuel _ _ _ _ hr
      cases ho; exact hsh
    obtain ⟨out, rfl⟩ := combine_no_raise h2
    refine ⟨out, _, rfl, combine_shows hs h2 hall, rfl, ?_, ?_, fun _ => Iff.rfl⟩
    · apply aggregate_list_known
      intro w hw
      obtain ⟨v, _, hu⟩ := hargs.mem_right hw
      exact unwraps_known hu
    · simp [View.aggregate]
  · obtain ⟨_, h⟩ := mapS_ok hmem h1; simp at h

/-- **C06.** `Output.all(**kwargs)`: the dict with the same keys in the same order. -/
theorem all_kwargs (hd : Completes roots d) {dry fuel n0 kwargs ws t n r n'} (hne : kwargs ≠ [])
    (h : Ran d t n (outputAll dry fuel [] kwargs) r n')
    (hargs : All2 (fun p w => Unwraps dry d.futs n0 p.2 w) kwargs ws) (hfuel : n0 ≤ fuel) :
    ∃ out w, r = .ok out ∧ Shows d.futs out w ∧
      w.value = .dict ((kwargs.map (·.1)).zip (ws.map (·.value))) ∧
      (w.known = true ↔ ∀ x ∈ ws, x.known = true) ∧
      (w.secret = true ↔ ∃ x ∈ ws, x.secret = true) ∧
      (∀ res, w.deps res ↔ ∃ x ∈ ws, x.deps res) := by
  have hs := settled_of_completes hd
  have hemp : kwargs.isEmpty = false := by cases kwargs <;> simp_all
  simp only [outputAll, List.isEmpty_nil, Bool.not_true, Bool.false_and, Bool.false_eq_true, if_false, hemp,
    Bool.not_false, if_true] at h
  have hmem : ∀ x ∈ kwargs, ∀ m r m', Ran d t m (fromInput dry fuel x.2) r m' → ∃ y, r = .ok y := by
    intro x hx m r m' hr
    obtain ⟨w, hw⟩ := hargs.mem_left hx
    obtain ⟨out, h, _⟩ := fromInput_shows hs _ _ _ _ hw hfuel _ _ _ _ hr
    exact ⟨out, h⟩
  rcases h.bind with ⟨os, m, h1, h2⟩ | ⟨e, h1, _⟩
  · have hall : ShowsAll d.futs os ws := by
      refine (mapS_ran h1).join hargs ?_
      rintro x o w ⟨m, m', hr⟩ hw
      obtain ⟨out, ho, hsh⟩ := fromInput_shows hs _ _ _ _ hw hfuel _ _ _ _ hr
      cases ho; exact hsh
    obtain ⟨out, rfl⟩ := combine_no_raise h2
    refine ⟨out, _, rfl, combine_shows hs h2 hall, rfl, ?_, ?_, fun _ => Iff.rfl⟩
    · apply aggregate_dict_known
      intro w hw
      obtain ⟨v, _, hu⟩ := hargs.mem_right hw
      exact unwraps_known hu
    · simp [View.aggregate]
  · obtain ⟨_, h⟩ := mapS_ok hmem h1; simp at h

/-- **C06.** Mixing positional and keyword arguments raises `ValueError` and starts no task. -/
theorem all_mixed {dry fuel args kwargs} (ha : args ≠ []) (hk : kwargs ≠ []) :
    outputAll dry fuel args kwargs = .raise "ValueError" := by
  cases args <;> cases kwargs <;> simp_all [outputAll]

/-- Non-vacuity of `all_args` and `all_kwargs`: a secret output beside a plain integer, preview or update. -/
example (dry : Bool) : ∃ roots d o t n out n', Completes roots d ∧
    Ran d t n (outputAll dry 3 [.out o, .int 1] []) (.ok out) n' ∧
    All2 (fun v w => Unwraps dry d.futs 2 v w) [.out o, .int 1] [sampleView, .ofPlain (.int 1)] ∧
    d.futs out.value = some (.ok (.list [.str "s", .int 1])) := by
  obtain ⟨roots, d, o, t, n, r, n', hd, hsh, _, hr⟩ := sample_then fun o => outputAll dry 3 [.out o, .int 1] []
  have ha : All2 (fun v w => Unwraps dry d.futs 2 v w) [.out o, .int 1] [sampleView, .ofPlain (.int 1)] :=
    .cons (nested_out hsh) (.cons (.prompt trivial) .nil)
  obtain ⟨out, w, rfl, h1, h2, _⟩ := all_args hd hr ha (by omega)
  exact ⟨roots, d, o, t, n, out, n', hd, hr, ha, by rw [h1.value, h2]; rfl⟩

example (dry : Bool) : ∃ roots d o t n out n', Completes roots d ∧
    Ran d t n (outputAll dry 3 [] [("a", .out o), ("b", .int 1)]) (.ok out) n' ∧
    All2 (fun p w => Unwraps dry d.futs 2 p.2 w) [("a", .out o), ("b", .int 1)] [sampleView, .ofPlain (.int 1)] ∧
    d.futs out.value = some (.ok (.dict [("a", .str "s"), ("b", .int 1)])) := by
  obtain ⟨roots, d, o, t, n, r, n', hd, hsh, _, hr⟩ := sample_then fun o => outputAll dry 3 [] [("a", .out o), ("b", .int 1)]
  have ha : All2 (fun p w => Unwraps dry d.futs 2 p.2 w) [("a", .out o), ("b", .int 1)] [sampleView, .ofPlain (.int 1)] :=
    .cons (nested_out hsh) (.cons (.prompt trivial) .nil)
  obtain ⟨out, w, rfl, h1, h2, _⟩ := all_kwargs hd (by simp) hr ha (by omega)
  exact ⟨roots, d, o, t, n, out, n', hd, hr, ha, by rw [h1.value, h2]; rfl⟩

/-! ## C07 -/

/-- The outputs met when deeply unwrapping a value. -/
inductive Nested (dry : Bool) (σ : Store) : Val → OutRef → Prop
  | here {o} : Nested dry σ (.out o) o
  | output {o w0 o'} : Shows σ o w0 →
      Nested dry σ (if dry && !w0.known && !containsUnknowns w0.value then .unknown else w0.value) o' →
      Nested dry σ (.out o) o'
  | awaitable {f v o} : σ f = some (.ok v) → Nested dry σ v o → Nested dry σ (.fut f) o
  | list {x xs o} : x ∈ xs → Nested dry σ x o → Nested dry σ (.list xs) o
  | dict {k x kvs o} : (k, x) ∈ kvs → Nested dry σ x o → Nested dry σ (.dict kvs) o
  | input {cls k x kvs o} : (k, x) ∈ kvs → Nested dry σ x o → Nested dry σ (.input cls kvs) o

theorem mem_zip_of_mem_left {α β : Type} : ∀ {as : List α} {bs : List β}, as.length = bs.length → ∀ {a}, a ∈ as →
    ∃ b, (a, b) ∈ as.zip bs
  | [], _, _, a, h => by simp at h
  | _ :: _, [], hl, a, h => by simp at hl
  | x :: as, y :: bs, hl, a, h => by
    rcases List.mem_cons.1 h with rfl | h
    · exact ⟨y, by simp⟩
    · obtain ⟨b, hb⟩ := mem_zip_of_mem_left (as := as) (bs := bs) (by simpa using hl) h
      exact ⟨b, by simp [hb]⟩

theorem mem_zip_of_mem_right {α β : Type} : ∀ {as : List α} {bs : List β}, as.length = bs.length → ∀ {b}, b ∈ bs →
    ∃ a, (a, b) ∈ as.zip bs
  | _, [], _, a, h => by simp at h
  | [], _ :: _, hl, a, h => by simp at hl
  | x :: as, y :: bs, hl, b, h => by
    rcases List.mem_cons.1 h with rfl | h
    · exact ⟨x, by simp⟩
    · obtain ⟨a, ha⟩ := mem_zip_of_mem_right (as := as) (bs := bs) (by simpa using hl) h
      exact ⟨a, by simp [ha]⟩

theorem Shows.deps_iff {σ o w w'} (h : Shows σ o w) (h' : Shows σ o w') : ∀ r, w.deps r ↔ w'.deps r := by
  obtain ⟨ids, h1, h2⟩ := h.deps
  obtain ⟨ids', h1', h2'⟩ := h'.deps
  rw [h1] at h1'; cases h1'
  intro r; rw [← h2, ← h2']

theorem Shows.unique {σ o w w'} (h : Shows σ o w) (h' : Shows σ o w') : w = w' := by
  apply View.ext _ _ _ (h.deps_iff h')
  · have := h.value; rw [h'.value] at this; simpa using this.symm
  · have := h.known; rw [h'.known] at this; simpa using this.symm
  · have := h.secret; rw [h'.secret] at this; simpa using this.symm

theorem unwraps_secret_iff {dry σ n v w} (h : Unwraps dry σ n v w) :
    w.secret = true ↔ ∃ o w', Nested dry σ v o ∧ Shows σ o w' ∧ w'.secret = true := by
  induction h with
  | prompt hp =>
    constructor
    · intro h; simp [View.ofPlain] at h
    · rintro ⟨o, w', h, _⟩
      rename_i v
      exfalso
      cases h with
      | here => simp [Prompt] at hp
      | output => simp [Prompt] at hp
      | awaitable => simp [Prompt] at hp
      | list hm => rename_i xs _; cases xs <;> simp_all [Prompt]
      | dict hm => rename_i xs _; cases xs <;> simp_all [Prompt]
      | input => simp [Prompt] at hp
  | awaitable hf _ ih =>
    simp only [View.after, View.ofPlain, Bool.or_false]
    rw [ih]
    constructor
    · rintro ⟨o, w', h1, h2⟩; exact ⟨o, w', .awaitable hf h1, h2⟩
    · rintro ⟨o, w', h1, h2⟩
      cases h1 with
      | awaitable hf' h1 => rw [hf] at hf'; cases hf'; exact ⟨o, w', h1, h2⟩
  | output ho _ ih =>
    simp only [View.after, Bool.or_eq_true]
    rw [ih]
    constructor
    · rintro (⟨o, w', h1, h2⟩ | h)
      · exact ⟨o, w', .output ho h1, h2⟩
      · exact ⟨_, _, .here, ho, h⟩
    · rintro ⟨o, w', h1, h2, h3⟩
      cases h1 with
      | here => right; rw [ho.unique h2]; exact h3
      | output ho' h1 => left; rw [ho.unique ho'] at *; exact ⟨o, w', h1, h2, h3⟩
  | list hlen hall ih =>
    simp only [View.aggregate, List.any_eq_true]
    constructor
    · rintro ⟨w, hw, hsec⟩
      obtain ⟨x, hx⟩ := mem_zip_of_mem_right hlen hw
      obtain ⟨o, w', h1, h2⟩ := (ih _ _ hx).1 hsec
      exact ⟨o, w', .list (List.of_mem_zip hx).1 h1, h2⟩
    · rintro ⟨o, w', h1, h2⟩
      cases h1 with
      | list hm h1 =>
        obtain ⟨w, hw⟩ := mem_zip_of_mem_left hlen hm
        exact ⟨w, (List.of_mem_zip hw).2, (ih _ _ hw).2 ⟨o, w', h1, h2⟩⟩
  | dict hlen hall ih =>
    simp only [View.aggregate, List.any_eq_true]
    constructor
    · rintro ⟨w, hw, hsec⟩
      obtain ⟨⟨k, x⟩, hx⟩ := mem_zip_of_mem_right hlen hw
      obtain ⟨o, w', h1, h2⟩ := (ih _ _ _ hx).1 hsec
      exact ⟨o, w', .dict (List.of_mem_zip hx).1 h1, h2⟩
    · rintro ⟨o, w', h1, h2⟩
      cases h1 with
      | dict hm h1 =>
        obtain ⟨w, hw⟩ := mem_zip_of_mem_left hlen hm
        exact ⟨w, (List.of_mem_zip hw).2, (ih _ _ _ hw).2 ⟨o, w', h1, h2⟩⟩
  | input hlen hall _ ih =>
    simp only [View.after, View.ofPlain, View.aggregate, Bool.false_or, List.any_eq_true]
    constructor
    · rintro ⟨w, hw, hsec⟩
      obtain ⟨⟨k, x⟩, hx⟩ := mem_zip_of_mem_right hlen hw
      obtain ⟨o, w', h1, h2⟩ := (ih _ _ _ hx).1 hsec
      exact ⟨o, w', .input (List.of_mem_zip hx).1 h1, h2⟩
    · rintro ⟨o, w', h1, h2⟩
      cases h1 with
      | input hm h1 =>
        obtain ⟨w, hw⟩ := mem_zip_of_mem_left hlen hm
        exact ⟨w, (List.of_mem_zip hw).2, (ih _ _ _ hw).2 ⟨o, w', h1, h2⟩⟩
  | inputUnknown hlen hall _ _ ih =>
    simp only [View.aggregate, List.any_eq_true]
    constructor
    · rintro ⟨w, hw, hsec⟩
      obtain ⟨⟨k, x⟩, hx⟩ := mem_zip_of_mem_right hlen hw
      obtain ⟨o, w', h1, h2⟩ := (ih _ _ _ hx).1 hsec
      exact ⟨o, w', .input (List.of_mem_zip hx).1 h1, h2⟩
    · rintro ⟨o, w', h1, h2⟩
      cases h1 with
      | input hm h1 =>
        obtain ⟨w, hw⟩ := mem_zip_of_mem_left hlen hm
        exact ⟨w, (List.of_mem_zip hw).2, (ih _ _ _ hw).2 ⟨o, w', h1, h2⟩⟩

theorem unwraps_deps_iff {dry σ n v w} (h : Unwraps dry σ n v w) (r : Nat) :
    w.deps r ↔ ∃ o w', Nested dry σ v o ∧ Shows σ o w' ∧ w'.deps r := by
  induction h with
  | prompt hp =>
    constructor
    · intro h; simp [View.ofPlain, noDeps] at h
    · rintro ⟨o, w', h, _⟩
      rename_i v
      exfalso
      cases h with
      | here => simp [Prompt] at hp
      | output => simp [Prompt] at hp
      | awaitable => simp [Prompt] at hp
      | list hm => rename_i xs _; cases xs <;> simp_all [Prompt]
      | dict hm => rename_i xs _; cases xs <;> simp_all [Prompt]
      | input => simp [Prompt] at hp
  | awaitable hf _ ih =>
    simp only [View.after, View.ofPlain, noDeps, false_or]
    rw [ih]
    constructor
    · rintro ⟨o, w', h1, h2⟩; exact ⟨o, w', .awaitable hf h1, h2⟩
    · rintro ⟨o, w', h1, h2⟩
      cases h1 with
      | awaitable hf' h1 => rw [hf] at hf'; cases hf'; exact ⟨o, w', h1, h2⟩
  | output ho _ ih =>
    simp only [View.after]
    rw [ih]
    constructor
    · rintro (h | ⟨o, w', h1, h2⟩)
      · exact ⟨_, _, .here, ho, h⟩
      · exact ⟨o, w', .output ho h1, h2⟩
    · rintro ⟨o, w', h1, h2, h3⟩
      cases h1 with
      | here => left; rw [ho.unique h2]; exact h3
      | output ho' h1 => right; rw [ho.unique ho'] at *; exact ⟨o, w', h1, h2, h3⟩
  | list hlen hall ih =>
    simp only [View.aggregate]
    constructor
    · rintro ⟨w, hw, hsec⟩
      obtain ⟨x, hx⟩ := mem_zip_of_mem_right hlen hw
      obtain ⟨o, w', h1, h2⟩ := (ih _ _ hx).1 hsec
      exact ⟨o, w', .list (List.of_mem_zip hx).1 h1, h2⟩
    · rintro ⟨o, w', h1, h2⟩
      cases h1 with
      | list hm h1 =>
        obtain ⟨w, hw⟩ := mem_zip_of_mem_left hlen hm
        exact ⟨w, (List.of_mem_zip hw).2, (ih _ _ hw).2 ⟨o, w', h1, h2⟩⟩
  | dict hlen hall ih =>
    simp only [View.aggregate]
    constructor
    · rintro ⟨w, hw, hsec⟩
      obtain ⟨⟨k, x⟩, hx⟩ := mem_zip_of_mem_right hlen hw
      obtain ⟨o, w', h1, h2⟩ := (ih _ _ _ hx).1 hsec
      exact ⟨o, w', .dict (List.of_mem_zip hx).1 h1, h2⟩
    · rintro ⟨o, w', h1, h2⟩
      cases h1 with
      | dict hm h1 =>
        obtain ⟨w, hw⟩ := mem_zip_of_mem_left hlen hm
        exact ⟨w, (List.of_mem_zip hw).2, (ih _ _ _ hw).2 ⟨o, w', h1, h2⟩⟩
  | input hlen hall _ ih =>
    simp only [View.after, View.ofPlain, noDeps, View.aggregate, or_false]
    constructor
    · rintro ⟨w, hw, hsec⟩
      obtain ⟨⟨k, x⟩, hx⟩ := mem_zip_of_mem_right hlen hw
      obtain ⟨o, w', h1, h2⟩ := (ih _ _ _ hx).1 hsec
      exact ⟨o, w', .input (List.of_mem_zip hx).1 h1, h2⟩
    · rintro ⟨o, w', h1, h2⟩
      cases h1 with
      | input hm h1 =>
        obtain ⟨w, hw⟩ := mem_zip_of_mem_left hlen hm
        exact ⟨w, (List.of_mem_zip hw).2, (ih _ _ _ hw).2 ⟨o, w', h1, h2⟩⟩
  | inputUnknown hlen hall _ _ ih =>
    simp only [View.aggregate]
    constructor
    · rintro ⟨w, hw, hsec⟩
      obtain ⟨⟨k, x⟩, hx⟩ := mem_zip_of_mem_right hlen hw
      obtain ⟨o, w', h1, h2⟩ := (ih _ _ _ hx).1 hsec
      exact ⟨o, w', .input (List.of_mem_zip hx).1 h1, h2⟩
    · rintro ⟨o, w', h1, h2⟩
      cases h1 with
      | input hm h1 =>
        obtain ⟨w, hw⟩ := mem_zip_of_mem_left hlen hm
        exact ⟨w, (List.of_mem_zip hw).2, (ih _ _ _ hw).2 ⟨o, w', h1, h2⟩⟩

/-- `v` with every nested output and awaitable replaced by its value (update). -/
inductive Replaced (σ : Store) : Val → Val → Prop
  | prompt {v} : Prompt v → Replaced σ v v
  | awaitable {f x v} : σ f = some (.ok x) → Replaced σ x v → Replaced σ (.fut f) v
  | output {o x v} : σ o.value = some (.ok x) → Replaced σ x v → Replaced σ (.out o) v
  | list {xs ys} : xs.length = ys.length → (∀ x y, (x, y) ∈ xs.zip ys → Replaced σ x y) → Replaced σ (.list xs) (.list ys)
  | dict {kvs ys} : kvs.length = ys.length → (∀ p y, (p, y) ∈ kvs.zip ys → Replaced σ p.2 y) →
      Replaced σ (.dict kvs) (.dict ((kvs.map (·.1)).zip ys))
  | input {cls kvs ys} : kvs.length = ys.length → (∀ p y, (p, y) ∈ kvs.zip ys → Replaced σ p.2 y) →
      Replaced σ (.input cls kvs) (.input cls ((kvs.map (·.1)).zip ys))

theorem mem_zip_map {α β γ : Type} {as : List α} {bs : List β} {g : β → γ} {a c} (h : (a, c) ∈ as.zip (bs.map g)) :
    ∃ b, (a, b) ∈ as.zip bs ∧ c = g b := by
  induction as generalizing bs with
  | nil => simp at h
  | cons x as ih =>
    cases bs with
    | nil => simp at h
    | cons y bs =>
      simp only [List.map_cons, List.zip_cons_cons, List.mem_cons, Prod.mk.injEq] at h ⊢
      rcases h with ⟨rfl, rfl⟩ | h
      · exact ⟨y, .inl ⟨rfl, rfl⟩, rfl⟩
      · obtain ⟨b, hb, hc⟩ := ih h
        exact ⟨b, .inr hb, hc⟩

theorem unwraps_replaced {σ n v w} (h : Unwraps false σ n v w) : Replaced σ v w.value := by
  induction h with
  | prompt hp => exact .prompt hp
  | awaitable hf _ ih => exact .awaitable hf ih
  | output ho _ ih => refine .output ho.value ?_; simp only [Bool.false_and, Bool.false_eq_true, if_false] at ih; exact ih
  | list hlen _ ih =>
    refine .list (by simpa using hlen) ?_
    intro x y hm
    obtain ⟨w, hw, rfl⟩ := mem_zip_map hm
    exact ih _ _ hw
  | dict hlen _ ih =>
    refine .dict (by simpa using hlen) ?_
    rintro ⟨k, x⟩ y hm
    obtain ⟨w, hw, rfl⟩ := mem_zip_map hm
    exact ih _ _ _ hw
  | input hlen _ _ ih =>
    refine .input (by simpa using hlen) ?_
    rintro ⟨k, x⟩ y hm
    obtain ⟨w, hw, rfl⟩ := mem_zip_map hm
    exact ih _ _ _ hw
  | inputUnknown _ _ hdry => simp at hdry

theorem mem_zip_keys {kvs : List (String × Val)} {ys : List View} (hl : kvs.length = ys.length) {k v}
    (h : (k, v) ∈ (kvs.map (·.1)).zip (ys.map (·.value))) : ∃ x w, ((k, x), w) ∈ kvs.zip ys ∧ v = w.value := by
  induction kvs generalizing ys with
  | nil => simp at h
  | cons p kvs ih =>
    cases ys with
    | nil => simp at hl
    | cons y ys =>
      obtain ⟨k', x'⟩ := p
      simp only [List.map_cons, List.zip_cons_cons, List.mem_cons, Prod.mk.injEq] at h ⊢
      rcases h with ⟨rfl, rfl⟩ | h
      · exact ⟨x', y, .inl ⟨⟨rfl, rfl⟩, rfl⟩, rfl⟩
      · obtain ⟨x, w, hm, hv⟩ := ih (by simpa using hl) h
        exact ⟨x, w, .inr hm, hv⟩

theorem unwraps_noInputs {dry σ n v w} (h : Unwraps dry σ n v w) : NoInputs w.value := by
  induction h with
  | prompt hp => exact .prompt hp
  | awaitable _ _ ih => exact ih
  | output _ _ ih => exact ih
  | list hlen _ ih =>
    refine .list ?_
    intro y hy
    simp only [List.mem_map] at hy
    obtain ⟨w, hw, rfl⟩ := hy
    obtain ⟨x, hx⟩ := mem_zip_of_mem_right hlen hw
    exact ih _ _ hx
  | dict hlen _ ih =>
    refine .dict ?_
    rintro ⟨k, y⟩ hy
    obtain ⟨x, w, hm, rfl⟩ := mem_zip_keys hlen hy
    exact ih _ _ _ hm
  | input hlen _ _ ih =>
    refine .input ?_
    rintro ⟨k, y⟩ hy
    obtain ⟨x, w, hm, rfl⟩ := mem_zip_keys hlen hy
    exact ih _ _ _ hm
  | inputUnknown => exact .prompt (by simp [Prompt])

/-- **C07** (partial). `Output.from_input(v)` for a value whose nested outputs and awaitables all settle, to any nesting depth:
it shows the deeply unwrapped value `w`, which contains no output or awaitable, is secret iff some nested
output is secret, depends on exactly what the nested outputs depend on, and on an update is `v` with each nested
output and awaitable replaced by its value.

Missing: an instance of an input class with no fields set anywhere inside `v`; there the code fails, see
`fromInput_empty_input`. In a preview an input-class instance with an unknown field becomes an unknown `None`. -/
theorem fromInput_unwraps_partial (hd : Completes roots d) {dry fuel n0 v w t n r n'}
    (h : Ran d t n (fromInput dry fuel v) r n') (hu : Unwraps dry d.futs n0 v w) (hfuel : n0 ≤ fuel) :
    ∃ out, r = .ok out ∧ Shows d.futs out w ∧ NoInputs w.value ∧
      (w.secret = true ↔ ∃ o w', Nested dry d.futs v o ∧ Shows d.futs o w' ∧ w'.secret = true) ∧
      (∀ res, w.deps res ↔ ∃ o w', Nested dry d.futs v o ∧ Shows d.futs o w' ∧ w'.deps res) ∧
      (dry = false → Replaced d.futs v w.value) := by
  have hs := settled_of_completes hd
  obtain ⟨out, rfl, hsh⟩ := fromInput_shows hs _ _ _ _ hu hfuel _ _ _ _ h
  exact ⟨out, rfl, hsh, unwraps_noInputs hu, unwraps_secret_iff hu, unwraps_deps_iff hu,
    by rintro rfl; exact unwraps_replaced hu⟩

/-- **C07**, the missing case: `from_input` of an input-class instance with no fields set never yields a value; the
output raises `TypeError` (`Output.all()` is a list, and `typ(**[])` fails). -/
theorem fromInput_empty_input (hd : Completes roots d) {dry fuel cls t n out n'}
    (h : Ran d t n (fromInput dry (fuel + 1) (.input cls [])) (.ok out) n') :
    d.futs out.value = some (.exn "TypeError") := by
  have hs := settled_of_completes hd
  simp only [fromInput] at h
  obtain ⟨os, m, h1, hb⟩ := h.bind_ok
  obtain ⟨o, m', h2, hc⟩ := hb.bind_ok
  obtain ⟨rfl, _⟩ := h1.pure_ok
  have hsh := combine_shows hs h2 (ws := []) .nil
  have hkn : (View.aggregate [] fun vs => if ([] : List (String × Val)).isEmpty then .list vs else .dict ((([] : List (String × Val)).map (·.1)).zip vs)).known = true := rfl
  obtain ⟨_, r, m'', h3, _, h4⟩ := apply_invoked hs hc hsh (.inr (.inl hkn))
  have : r = .error "TypeError" := by
    have harg : callbackArg dry (View.aggregate [] fun vs => if ([] : List (String × Val)).isEmpty then .list vs else .dict ((([] : List (String × Val)).map (·.1)).zip vs)) = .list [] := by
      unfold callbackArg; rw [hkn]; simp; rfl
    rw [harg] at h3
    cases h3; rfl
  exact (h4 _ this).1

/-- Non-vacuity of `fromInput_unwraps_partial`: a nested value with a secret output at two depths. -/
example (dry : Bool) : ∃ roots d o t n r n' w, Completes roots d ∧ Ran d t n (fromInput dry 4 (nestedVal o)) r n' ∧
    Unwraps dry d.futs 4 (nestedVal o) w ∧ w.secret = true := by
  obtain ⟨roots, d, o, t, n, r, n', hd, hsh, _, hr⟩ := sample_then fun o => fromInput dry 4 (nestedVal o)
  obtain ⟨w, hw, _⟩ := nested_unwraps (dry := dry) hsh
  exact ⟨roots, d, o, t, n, r, n', w, hd, hr, hw,
    (unwraps_secret_iff hw).2 ⟨o, _, .list (x := .out o) (by simp) .here, hsh, rfl⟩⟩

/-- Non-vacuity of `fromInput_empty_input`: `from_input(Args())` does return an output. -/
example : ∃ roots d t n out n', Completes roots d ∧ Ran d t n (fromInput false 1 (.input "Args" [])) (.ok out) n' := by
  obtain ⟨d, r, n', hd, hr⟩ := main_ran (fromInput false 1 (.input "Args" []))
  cases r with
  | ok out => exact ⟨_, d, _, _, out, _, hd, hr⟩
  | error e =>
    simp only [fromInput] at hr
    rcases hr.bind with ⟨os, m, h1, h2⟩ | ⟨e, h1, _⟩
    · rcases h2.bind with ⟨o, m', h3, h4⟩ | ⟨e, h3, _⟩
      · obtain ⟨_, h⟩ := apply_no_raise' h4; simp at h
      · obtain ⟨_, h⟩ := combine_no_raise h3; simp at h
    · cases h1

/-! ## C08 -/

/-- **C08.** `Output.secret(v)` is secret, whatever `v` is and even if it never settles; value, known flag and
dependencies are those of `from_input(v)`. -/
theorem secret_spec (hd : Completes roots d) {dry fuel v t n out n'}
    (h : Ran d t n (secret dry fuel v) (.ok out) n') :
    d.futs out.secret = some (.ok (.bool true)) ∧
    ∃ o m, Ran d t n (fromInput dry fuel v) (.ok o) m ∧ out.value = o.value ∧ out.resources = o.resources ∧
      ∀ w, (w.known = true → ¬ UnknownInside w.value) → Shows d.futs o w → Shows d.futs out { w with secret := true } := by
  have hs := settled_of_completes hd
  obtain ⟨o, m, h1, h⟩ := h.bind_ok
  obtain ⟨fs, m', h2, h⟩ := h.bind_ok
  have h2 := resolved_ran hs h2
  obtain ⟨e1, e2, e3, u, e4, hu⟩ := mkOutput_ran h
  refine ⟨by rw [e3, h2], o, m, h1, e2, e1, ?_⟩
  intro w hk hw
  refine ⟨by rw [e2]; exact hw.value, ?_, by rw [e3, h2], by rw [e1]; exact hw.deps⟩
  rw [e4, isValueKnown_res hs hu, hw.known, hw.value]
  cases hwk : w.known with
  | false => simp [truthy]
  | true =>
    have := hk hwk
    rw [← containsUnknowns_iff] at this
    simp [truthy, this]

/-- **C08.** `Output.unsecret(o)` is never secret; value, known flag and dependencies are those of `o`. -/
theorem unsecret_spec (hd : Completes roots d) {o t n out n'}
    (h : Ran d t n (unsecret o) (.ok out) n') :
    d.futs out.secret = some (.ok (.bool false)) ∧ out.value = o.value ∧ out.resources = o.resources ∧
      ∀ w, IsOutput d o → Shows d.futs o w → Shows d.futs out { w with secret := false } := by
  have hs := settled_of_completes hd
  obtain ⟨fs, m', h2, h⟩ := h.bind_ok
  have h2 := resolved_ran hs h2
  obtain ⟨e1, e2, e3, u, e4, hu⟩ := mkOutput_ran h
  refine ⟨by rw [e3, h2], e2, e1, ?_⟩
  intro w ho hw
  refine ⟨by rw [e2]; exact hw.value, ?_, by rw [e3, h2], by rw [e1]; exact hw.deps⟩
  rw [e4, isValueKnown_res hs hu, hw.known, hw.value]
  cases hwk : w.known with
  | false => simp [truthy]
  | true =>
    have := known_has_no_unknown hd ho hw hwk
    rw [← containsUnknowns_iff] at this
    simp [truthy, this]

/-- Non-vacuity of `secret_spec` and `unsecret_spec`. -/
example : ∃ roots d o t n out n', Completes roots d ∧ Ran d t n (unsecret o) (.ok out) n' ∧ IsOutput d o ∧
    Shows d.futs o sampleView := by
  obtain ⟨roots, d, o, t, n, r, n', hd, hsh, hi, hr⟩ := sample_then unsecret
  have : ∃ out, r = .ok out := by
    unfold unsecret at hr
    rcases hr.bind with ⟨f, m, h1, h2⟩ | ⟨e, h1, _⟩
    · exact mkOutput_no_raise' h2
    · obtain ⟨_, h⟩ := resolved_no_raise' h1; simp at h
  obtain ⟨out, rfl⟩ := this
  exact ⟨roots, d, o, t, n, out, n', hd, hr, hi, hsh⟩

example : ∃ roots d o t n out n', Completes roots d ∧ Ran d t n (secret false 4 (nestedVal o)) (.ok out) n' := by
  obtain ⟨roots, d, o, t, n, r, n', hd, hsh, hi, hr⟩ := sample_then fun o => secret false 4 (nestedVal o)
  have hs := settled_of_completes hd
  obtain ⟨w, hw, _⟩ := nested_unwraps (dry := false) hsh
  have : ∃ out, r = .ok out := by
    unfold secret at hr
    rcases hr.bind with ⟨f, m, h1, h2⟩ | ⟨e, h1, _⟩
    · rcases h2.bind with ⟨f, m, h1, h2⟩ | ⟨e, h1, _⟩
      · exact mkOutput_no_raise' h2
      · obtain ⟨_, h⟩ := resolved_no_raise' h1; simp at h
    · obtain ⟨_, h, _⟩ := fromInput_shows hs _ _ _ _ hw (Nat.le_refl _) _ _ _ _ h1; simp at h
  obtain ⟨out, rfl⟩ := this
  exact ⟨roots, d, o, t, n, out, n', hd, hr⟩

/-! ## C05 -/

/-- A callback returning outputs, seen as a callback returning inputs. -/
def returning (f : Val → Sync OutRef) : Val → Sync Val := fun v => (f v).bind fun o => .pure (.out o)

/-- Every execution in `d` of `f` on `v` returns an output that shows `w`. -/
def DenotesOutput (d : Config) (f : Val → Sync OutRef) (v : Val) (w : View) : Prop :=
  ∀ t n r n', Ran d t n (f v) r n' → ∃ o, r = .ok o ∧ Shows d.futs o w

/-- Outputs that are known have no unknown inside (`known_has_no_unknown`: true of every `Output` object). -/
def KnownOk (w : View) : Prop := w.known = true → ¬ UnknownInside w.value

theorem KnownOk.and {w : View} (h : KnownOk w) : (w.known && !containsUnknowns w.value) = w.known := by
  cases hk : w.known with
  | false => rfl
  | true => have := h hk; rw [← containsUnknowns_iff] at this; simp [this]

theorem returning_denotes {f : Val → Sync OutRef} {v w} (h : DenotesOutput d f v w) : Denotes d (returning f) v w := by
  intro t n r n' hr
  rcases Ran.bind hr with ⟨o, m, h1, h2⟩ | ⟨e, h1, _⟩
  · obtain ⟨o', ho, hw⟩ := h _ _ _ _ h1
    cases ho; cases h2
    exact ⟨_, rfl, .output hw⟩
  · obtain ⟨o', ho, hw⟩ := h _ _ _ _ h1
    simp at ho

/-- What `apply` with callback view `w'` shows, in preview or update. -/
def applied (dry : Bool) (w w' : View) : View :=
  if dry && !w.known then { value := .none, known := false, secret := w.secret, deps := w.deps } else w.after w'

theorem apply_applied (hs : Settled d) {t n n' dry o f out w w'}
    (h : Ran d t n (apply dry o f) (.ok out) n') (ho : Shows d.futs o w)
    (hf : dry = false ∨ w.known = true → Denotes d f w.value w') : Shows d.futs out (applied dry w w') := by
  unfold applied
  cases hc : (dry && !w.known) with
  | false =>
    have hrun : dry = false ∨ w.known = true := by
      cases dry <;> simp_all
    simp only [Bool.false_eq_true, if_false]
    refine apply_shows hs h ho (hrun.imp id .inl) ?_
    intro r m' hr
    have harg : callbackArg dry w = w.value := by
      unfold callbackArg; rw [hc]; simp
    rw [harg] at hr
    exact hf hrun _ _ _ _ hr
  | true =>
    simp only [Bool.and_eq_true, Bool.not_eq_true'] at hc
    obtain ⟨rfl, hk⟩ := hc
    obtain ⟨R, hR, hhas, hv, hr, hsec, hkn⟩ := apply_futs hs h
    obtain ⟨ids, hids, hm⟩ := ho.deps
    have hspec := applyRun_spec hs hhas
    rw [← hR] at hspec
    simp only [hids, ho.known, ho.secret, ho.value, hk, truthy] at hspec
    simp at hspec
    obtain ⟨_, rfl⟩ := hspec
    simp only [truthy] at hkn
    exact ⟨hv, by simpa using hkn, hsec, ids, hr, hm⟩

/-- **C05, left identity.** `from_input(x).apply(f)` shows exactly what `f(x)` amounts to, for a plain prompt value `x` without
unknowns, in preview and update. -/
theorem apply_left_identity (hd : Completes roots d) {dry fuel x f t n out n' w'}
    (h : Ran d t n ((fromInput dry (fuel + 1) x).bind fun o => apply dry o f) (.ok out) n')
    (hx : Prompt x) (hxu : ¬ UnknownInside x) (hf : Denotes d f x w') (hw : KnownOk w') : Shows d.futs out w' := by
  have hs := settled_of_completes hd
  rw [← containsUnknowns_iff] at hxu
  obtain ⟨o, m, h1, h2⟩ := h.bind_ok
  obtain ⟨o', ho, hsh⟩ := fromInput_shows hs _ _ _ _ (Unwraps.prompt (n := fuel) hx) (Nat.le_refl _) _ _ _ _ h1
  cases ho
  have := apply_applied hs h2 hsh (fun _ => hf)
  have he : applied dry (View.ofPlain x) w' = w' := by
    unfold applied
    have : (dry && !(View.ofPlain x).known) = false := by simp [View.ofPlain, hxu]
    rw [this]
    simp only [Bool.false_eq_true, if_false]
    apply View.ext
    · rfl
    · exact hw.and
    · simp [View.after, View.ofPlain]
    · intro r; simp [View.after, View.ofPlain, noDeps]
  rw [he] at this
  exact this

/-- **C05, right identity.** `o.apply(lambda x: x)` shows what a known output `o` of a plain value shows. In a preview an
unknown `o` stays unknown with the same secretness and dependencies. -/
theorem apply_right_identity (hd : Completes roots d) {dry o t n out n' w}
    (h : Ran d t n (apply dry o (fun x => .pure x)) (.ok out) n')
    (ho : Shows d.futs o w) (hout : IsOutput d o) (hp : Plain w.value) :
    (w.known = true → Shows d.futs out w) ∧
    (w.known = false → dry = true → Shows d.futs out { w with value := .none }) := by
  have hs := settled_of_completes hd
  have h1 := apply_applied hs h ho (w' := .ofPlain w.value) (by
    intro _ t n r n' hr; cases hr; exact ⟨_, rfl, .plain hp⟩)
  constructor
  · intro hk
    have hko := known_has_no_unknown hd hout ho hk
    rw [← containsUnknowns_iff] at hko
    have he : applied dry w (View.ofPlain w.value) = w := by
      unfold applied
      simp only [hk, Bool.not_true, Bool.and_false, Bool.false_eq_true, if_false]
      apply View.ext
      · rfl
      · simp [View.after, View.ofPlain, hko, hk]
      · simp [View.after, View.ofPlain]
      · intro r; simp [View.after, View.ofPlain, noDeps]
    rw [he] at h1; exact h1
  · rintro hk rfl
    unfold applied at h1
    simp only [hk, Bool.not_false, Bool.and_true, if_true] at h1
    have he : ({ w with value := .none } : View) = { value := .none, known := false, secret := w.secret, deps := w.deps } := by
      rw [← hk]
    rw [he]; exact h1

/-- **C05, associativity.** `o.apply(f).apply(g)` and `o.apply(lambda x: f(x).apply(g))` show the same value, known flag, secret flag
and dependencies, in preview and update, whether or not the outputs involved are known. -/
theorem apply_associative (hd : Completes roots d) {dry o f g w wf wg t1 n1 n1' out1 t2 n2 n2' out2}
    (h1 : Ran d t1 n1 ((apply dry o (returning f)).bind fun o1 => apply dry o1 g) (.ok out1) n1')
    (h2 : Ran d t2 n2 (apply dry o (returning fun x => (f x).bind fun o1 => apply dry o1 g)) (.ok out2) n2')
    (ho : Shows d.futs o w) (hf : DenotesOutput d f w.value wf) (hwf : KnownOk wf) (hg : Denotes d g wf.value wg) :
    ∃ W, Shows d.futs out1 W ∧ Shows d.futs out2 W := by
  have hs := settled_of_completes hd
  obtain ⟨o1, m, ha, hb⟩ := h1.bind_ok
  have s1 := apply_applied hs ha ho (fun _ => returning_denotes hf)
  have s2 := apply_applied hs hb s1 (w' := wg) (by
    intro hh
    unfold applied at hh ⊢
    cases hc : (dry && !w.known) with
    | false => exact hg
    | true =>
      rw [hc] at hh
      simp at hh
      subst hh
      simp at hc)
  have s3 : DenotesOutput d (fun x => (f x).bind fun o1 => apply dry o1 g) w.value (applied dry wf wg) := by
    intro t n r n' hr
    rcases Ran.bind hr with ⟨o', m', h3, h4⟩ | ⟨e, h3, _⟩
    · obtain ⟨o'', hoo, hw⟩ := hf _ _ _ _ h3
      cases hoo
      obtain ⟨out, rfl⟩ := apply_no_raise h4
      exact ⟨out, rfl, apply_applied hs h4 hw (fun _ => hg)⟩
    · obtain ⟨o'', hoo, hw⟩ := hf _ _ _ _ h3
      simp at hoo
  have s4 := apply_applied hs h2 ho (fun _ => returning_denotes s3)
  refine ⟨_, s2, ?_⟩
  have he : applied dry (applied dry w wf) wg = applied dry w (applied dry wf wg) := by
    have hand := hwf.and
    cases dry with
    | false =>
      simp only [applied, Bool.false_and, Bool.false_eq_true, if_false]
      apply View.ext
      · rfl
      · simp [View.after]
      · simp [View.after, Bool.or_assoc]
      · intro r; simp [View.after, or_assoc]
    | true =>
      cases hk : w.known with
      | false => simp [applied, hk]
      | true =>
        cases hk' : wf.known with
        | false =>
          simp only [applied, hk, hk', View.after, Bool.not_true, Bool.and_false, Bool.not_false, Bool.true_and,
            Bool.false_eq_true, if_false, if_true, Bool.false_and]
        | true =>
          have hcu : containsUnknowns wf.value = false := by
            rw [hk'] at hand; simpa using hand
          apply View.ext
          · simp [applied, hk, hk', View.after, hcu]
          · simp [applied, hk, hk', View.after, hcu]
          · simp [applied, hk, hk', View.after, hcu, Bool.or_assoc]
          · intro r; simp [applied, hk, hk', View.after, hcu, or_assoc]
  rw [he]; exact s4

/-- A callback that returns a fresh dependent output. -/
def wrapAgain (x : Val) : Sync OutRef := sample x true false [9]

/-- Non-vacuity of the three laws: `f` returns a fresh output depending on resource 9, `g` is the identity. -/
example (dry : Bool) : ∃ roots d o t1 n1 n1' out1, Completes roots d ∧
    Ran d t1 n1 ((apply dry o (returning wrapAgain)).bind fun o1 => apply dry o1 fun x => .pure x) (.ok out1) n1' ∧
    Shows d.futs o sampleView ∧ IsOutput d o ∧ Plain sampleView.value ∧
    DenotesOutput d wrapAgain sampleView.value { value := .str "s", known := true, secret := false, deps := (· ∈ [9]) } ∧
    KnownOk { value := .str "s", known := true, secret := false, deps := (· ∈ [9]) } ∧
    Denotes d (fun x => .pure x) (.str "s") (.ofPlain (.str "s")) := by
  obtain ⟨roots, d, o, t, n, r, n', hd, hsh, hi, hr⟩ := sample_then fun o =>
    (apply dry o (returning wrapAgain)).bind fun o1 => apply dry o1 fun x => .pure x
  have hs := settled_of_completes hd
  have : ∃ out, r = .ok out := by
    rcases hr.bind with ⟨f, m, h1, h2⟩ | ⟨e, h1, _⟩
    · exact apply_no_raise' h2
    · obtain ⟨_, h⟩ := apply_no_raise' h1; simp at h
  obtain ⟨out, rfl⟩ := this
  refine ⟨roots, d, o, t, n, n', out, hd, hr, hsh, hi, trivial, ?_, ?_, ?_⟩
  · intro t n r n' hr
    obtain ⟨o', ho, hsh, _⟩ := sample_ran hs hr
    exact ⟨o', ho, hsh⟩
  · intro _ h; cases h
  · intro t n r n' hr; cases hr; exact ⟨_, rfl, .plain trivial⟩

example (dry : Bool) : ∃ roots d o t n n' out, Completes roots d ∧ Shows d.futs o sampleView ∧
    Ran d t n (apply dry o (returning fun x => (wrapAgain x).bind fun o1 => apply dry o1 fun x => .pure x)) (.ok out) n' := by
  obtain ⟨roots, d, o, t, n, r, n', hd, hsh, hi, hr⟩ := sample_then fun o =>
    apply dry o (returning fun x => (wrapAgain x).bind fun o1 => apply dry o1 fun x => .pure x)
  obtain ⟨out, rfl⟩ := apply_no_raise' hr
  exact ⟨roots, d, o, t, n, n', out, hd, hsh, hr⟩

/-! ## C41: concat -/

/-- **C41.** `Output.concat(*args)` for arguments that unwrap to known strings: the concatenation in order, known, secret iff
some argument is, depending on the union. -/
theorem concat_spec (hd : Completes roots d) {dry fuel n0 args ws strs t n out n'}
    (h : Ran d t n (concat dry fuel args) (.ok out) n')
    (hargs : All2 (fun v w => Unwraps dry d.futs n0 v w) args ws) (hfuel : n0 ≤ fuel) (hf2 : 2 ≤ fuel)
    (hstr : ws.map (·.value) = strs.map .str) (hk : ∀ w ∈ ws, w.known = true) :
    ∃ w, Shows d.futs out w ∧ w.value = .str (String.join strs) ∧ w.known = true ∧
      (w.secret = true ↔ ∃ x ∈ ws, x.secret = true) ∧ (∀ res, w.deps res ↔ ∃ x ∈ ws, x.deps res) := by
  have hs := settled_of_completes hd
  obtain ⟨os, m, h1, hb⟩ := h.bind_ok
  obtain ⟨o, m', h2, hc⟩ := hb.bind_ok
  have hall : ShowsAll d.futs os ws := by
    refine (mapS_ran h1).join hargs ?_
    rintro x o w ⟨m, m', hr⟩ hw
    obtain ⟨out, ho, hsh⟩ := fromInput_shows hs _ _ _ _ hw hfuel _ _ _ _ hr
    cases ho; exact hsh
  -- each output unwraps to itself
  have hun : All2 (fun v w => Unwraps dry d.futs 2 v w) (os.map .out) ws := by
    clear h h1 h2 hargs hb hc
    induction hall generalizing strs with
    | nil => exact .nil
    | cons hsh _ ih =>
      rename_i o w os ws _
      cases strs with
      | nil => simp at hstr
      | cons s strs =>
        simp only [List.map_cons, List.cons.injEq] at hstr
        refine .cons ?_ (ih hstr.2 (fun w hw => hk w (by simp [hw])))
        have hkw := hk w (by simp)
        have hu := Unwraps.output (dry := dry) (n := 1) hsh (w := .ofPlain w.value) (by
          simp only [hkw, Bool.not_true, Bool.and_false, Bool.false_and, Bool.false_eq_true, if_false]
          rw [hstr.1]
          exact .prompt (by simp [Prompt]))
        have he : w.after (.ofPlain w.value) = w := by
          apply View.ext
          · rfl
          · simp [View.after, View.ofPlain, hstr.1, containsUnknowns, hkw]
          · simp [View.after, View.ofPlain]
          · intro r; simp [View.after, View.ofPlain, noDeps]
        rw [he] at hu
        exact hu
  obtain ⟨o', w, ho, hsh, hv, hkn, hsec, hdeps⟩ := all_args hd h2 hun hf2
  cases ho
  have hjoin : ∀ strs : List String, joinStrs (strs.map .str) = some (String.join strs) := by
    intro strs
    induction strs with
    | nil => rfl
    | cons s strs ih => simp [joinStrs, ih, String.join_cons]
  have happ := apply_applied hs hc hsh (w' := .ofPlain (.str (String.join strs))) (by
    intro _ t n r n' hr
    rw [hv, hstr] at hr
    simp only [hjoin] at hr
    cases hr
    exact ⟨_, rfl, .plain (by simp [Plain])⟩)
  have hkw : w.known = true := hkn.2 hk
  unfold applied at happ
  simp only [hkw, Bool.not_true, Bool.and_false, Bool.false_eq_true, if_false] at happ
  refine ⟨_, happ, rfl, by simp [View.after, View.ofPlain, containsUnknowns], ?_, ?_⟩
  · simp only [View.after, View.ofPlain, Bool.false_or]; exact hsec
  · intro r; simp only [View.after, View.ofPlain, noDeps, or_false]; exact hdeps r

/-- Non-vacuity of `concat_spec`: `Output.concat("a", o)` with `o` a secret output. -/
example (dry : Bool) : ∃ roots d o t n out n', Completes roots d ∧ Ran d t n (concat dry 3 [.str "a", .out o]) (.ok out) n' ∧
    All2 (fun v w => Unwraps dry d.futs 2 v w) [.str "a", .out o] [.ofPlain (.str "a"), sampleView] ∧
    d.futs out.value = some (.ok (.str "as")) := by
  obtain ⟨roots, d, o, t, n, r, n', hd, hsh, hi, hr⟩ := sample_then fun o => concat dry 3 [.str "a", .out o]
  have hs := settled_of_completes hd
  have ha : All2 (fun v w => Unwraps dry d.futs 2 v w) [.str "a", .out o] [.ofPlain (.str "a"), sampleView] :=
    .cons (.prompt trivial) (.cons (nested_out hsh) .nil)
  have hok : ∀ x ∈ [Val.str "a", .out o], ∀ m r m', Ran d t m (fromInput dry 3 x) r m' → ∃ y, r = .ok y := by
    intro x hx m r m' hr
    obtain ⟨w, hw⟩ := ha.mem_left hx
    obtain ⟨y, h, _⟩ := fromInput_shows hs _ _ _ _ hw (by omega) _ _ _ _ hr
    exact ⟨y, h⟩
  have : ∃ out, r = .ok out := by
    unfold concat at hr
    rcases hr.bind with ⟨os, m, h1, h2⟩ | ⟨e, h1, _⟩
    · rcases h2.bind with ⟨f, m', h3, h4⟩ | ⟨e, h3, _⟩
      · exact apply_no_raise' h4
      · exfalso
        have hall : ShowsAll d.futs os [.ofPlain (.str "a"), sampleView] := by
          refine (mapS_ran h1).join ha ?_
          rintro x o w ⟨m, m', hr⟩ hw
          obtain ⟨out, ho, hsh⟩ := fromInput_shows hs _ _ _ _ hw (by omega) _ _ _ _ hr
          cases ho; exact hsh
        have hun : All2 (fun v w => Unwraps dry d.futs 2 v w) (os.map .out) [.ofPlain (.str "a"), sampleView] := by
          cases hall with
          | cons a hall => cases hall with
            | cons b hall => cases hall with
              | nil =>
                refine .cons ?_ (.cons (nested_out b) .nil)
                have := Unwraps.output (dry := dry) (n := 1) a (w := .ofPlain (.str "a")) (by
                  simp [View.ofPlain, containsUnknowns]
                  exact .prompt trivial)
                have he : (View.ofPlain (.str "a")).after (.ofPlain (.str "a")) = .ofPlain (.str "a") := by
                  apply View.ext <;> simp [View.after, View.ofPlain, containsUnknowns, noDeps]
                rwa [he] at this
        obtain ⟨_, _, h, _⟩ := all_args hd h3 hun (by omega)
        simp at h
    · obtain ⟨_, h⟩ := mapS_ok hok h1; simp at h
  obtain ⟨out, rfl⟩ := this
  obtain ⟨w, h1, h2, _⟩ := concat_spec hd hr ha (by omega) (by omega) (strs := ["a", "s"]) rfl (by
    intro w hw; simp at hw; rcases hw with rfl | rfl <;> rfl)
  exact ⟨roots, d, o, t, n, out, n', hd, hr, ha, by rw [h1.value, h2]; rfl⟩

/-! ## C42: lifted attribute and item access -/

/-- **C42.** `o.attr` / `o[key]` on an output of a known plain value shows the attribute or item, with `o`'s secretness and
dependencies; if the access raises, the result raises. -/
theorem lifted_known (hd : Completes roots d) {dry o get t n out n' w}
    (h : Ran d t n (lifted dry o get) (.ok out) n') (ho : Shows d.futs o w) (hout : IsOutput d o) (hk : w.known = true) :
    (∀ x, get w.value = .ok x → Plain x →
      Shows d.futs out { value := x, known := !containsUnknowns x, secret := w.secret, deps := w.deps }) ∧
    (∀ e, get w.value = .error e → d.futs out.value = some (.exn e)) := by
  have hs := settled_of_completes hd
  obtain ⟨_, r, m', h2, h3, h4⟩ := apply_invoked hs h ho (.inr (.inl hk))
  have hko := known_has_no_unknown hd hout ho hk
  have hnu : w.value ≠ .unknown := by intro he; rw [he] at hko; exact hko .here
  have harg : callbackArg dry w = w.value := by simp [callbackArg, hk]
  have hmatch : (match w.value with
      | .unknown => (Sync.pure .unknown : Sync Val)
      | v => match get v with | .ok w => .pure w | .error e => .raise e) =
      (match get w.value with | .ok w => .pure w | .error e => .raise e) := by
    cases hv : w.value <;> first | rfl | exact absurd hv hnu
  rw [harg] at h2
  have h2 : Ran d (.child t n) 0 (match get w.value with | .ok w => (Sync.pure w : Sync Val) | .error e => .raise e) r m' := by
    cases hv : w.value <;> first | exact absurd hv hnu | (rw [hv] at h2; exact h2)
  constructor
  · intro x hx hp
    rw [hx] at h2
    cases h2
    have := h3 _ _ rfl (.plain hp)
    have he : w.after (.ofPlain x) = { value := x, known := !containsUnknowns x, secret := w.secret, deps := w.deps } := by
      apply View.ext
      · rfl
      · simp [View.after, View.ofPlain]
      · simp [View.after, View.ofPlain]
      · intro r; simp [View.after, View.ofPlain, noDeps]
    rw [he] at this; exact this
  · intro e he
    rw [he] at h2
    cases h2
    exact (h4 e rfl).1

/-- **C42.** In a preview, lifted access on an output that is not known is unknown (the access is not attempted when the
value itself carries no unknown), with the same secretness and dependencies. -/
theorem lifted_unknown (hd : Completes roots d) {o get t n out n' w}
    (h : Ran d t n (lifted true o get) (.ok out) n') (ho : Shows d.futs o w) (hk : w.known = false)
    (hv : w.value = .unknown ∨ ¬ UnknownInside w.value) :
    Shows d.futs out { value := .unknown, known := false, secret := w.secret, deps := w.deps } := by
  have hs := settled_of_completes hd
  obtain ⟨_, r, m', h2, h3, h4⟩ := apply_invoked hs h ho (.inr (.inr rfl))
  have harg : callbackArg true w = .unknown := by
    unfold callbackArg
    rcases hv with hv | hv
    · simp [hk, hv, containsUnknowns]
    · rw [← containsUnknowns_iff] at hv; simp [hk, hv]
  rw [harg] at h2
  cases h2
  have := h3 _ _ rfl (.plain (by simp [Plain]))
  have he : w.after (.ofPlain .unknown) = { value := .unknown, known := false, secret := w.secret, deps := w.deps } := by
    apply View.ext
    · rfl
    · simp [View.after, View.ofPlain, containsUnknowns]
    · simp [View.after, View.ofPlain]
    · intro r; simp [View.after, View.ofPlain, noDeps]
  rw [he] at this; exact this

/-- Non-vacuity of `lifted_known` and `lifted_unknown`: an output of a dict, known or not. -/
example (k : Bool) : ∃ roots d o t n out n' w, Completes roots d ∧ IsOutput d o ∧ Shows d.futs o w ∧ w.known = k ∧
    ¬ UnknownInside w.value ∧
    Ran d t n (lifted true o fun v => match v with | .dict ((_, x) :: _) => .ok x | _ => .error "KeyError") (.ok out) n' := by
  obtain ⟨d, r, n', hd, hr⟩ := main_ran ((sample (.dict [("a", .int 1)]) k true [7]).bind fun o =>
    lifted true o fun v => match v with | .dict ((_, x) :: _) => .ok x | _ => .error "KeyError")
  have hs := settled_of_completes hd
  rcases hr.bind with ⟨o, m, h1, h2⟩ | ⟨e, h1, _⟩
  · obtain ⟨o', ho, hsh, hi⟩ := sample_ran hs h1
    cases ho
    obtain ⟨out, rfl⟩ := apply_no_raise' h2
    refine ⟨_, d, o, _, _, out, _, _, hd, hi, hsh, by cases k <;> rfl, ?_, h2⟩
    rw [← containsUnknowns_iff]; simp [containsUnknowns, containsUnknownsDict]
  · obtain ⟨o', ho, _⟩ := sample_ran hs h1
    simp at ho

end Pulumi.Output
