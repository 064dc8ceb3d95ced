import Verif.Filestate.Renames
/-! # Updates of stacks, and the history (C194, C195) -/
namespace Pulumi.Filestate

variable {C S α β : Type}

theorem always_saveAll {φ : Bool} (K : Coder C S) {gz : Bool} {keepAll : Option Nat} {s : String} (e : Engine S) {b : Bucket C} (ho : Only gz s b) :
    Always φ (fun b' => Only gz s b' ∧ Kept (K.save gz) e (b.current s) (b'.current s) ∧ ∀ f : File, f.stack ≠ s → b'.get f = b.get f)
      (saveAll K gz keepAll s e) b fun _ _ => True := by
  induction e generalizing b with
  | stop => exact ⟨⟨ho, .same _ _, fun _ _ => rfl⟩, trivial⟩
  | save st next ih =>
    unfold saveAll
    have key : ∀ b2, Saving φ s gz (K.save gz st) b b2 → Only gz s b2 ∧ (b2.current s = b.current s ∨ b2.current s = some (K.save gz st)) ∧
        ∀ f : File, f.stack ≠ s → b2.get f = b.get f := by
      intro b2 h2
      have ho2 : Only gz s b2 := by
        unfold Only at *
        rcases h2.other with h | h
        · rw [h, ho]
        · exact h
      refine ⟨ho2, ?_, fun f hf => saving_other h2 hf f rfl⟩
      rw [current_only ho, current_only ho2]
      rcases h2.state with h | h
      · left; rw [Bucket.content, h]; rfl
      · exact .inr h
    refine always_bind (always_mono (always_saveStack φ K s gz keepAll st b) (fun b2 h2 => ?_) fun r b2 h2 hq => ?_)
    · obtain ⟨k1, k2, k3⟩ := key b2 h2
      refine ⟨k1, ?_, k3⟩
      rcases k2 with h | h
      · rw [h]; exact .same _ _
      · rw [h]; exact .unsure _ _ _ _ (.same _ _)
    · obtain ⟨k1, k2, k3⟩ := key b2 h2
      refine always_mono (ih r k1) (fun b3 h3 => ⟨h3.1, ?_, fun f hf => by rw [h3.2.2 f hf, k3 f hf]⟩) fun _ _ _ _ => trivial
      have h3' := h3.2.1
      cases r with
      | true =>
        have : b2.current s = some (K.save gz st) := by rw [current_only k1]; exact hq.1 rfl
        rw [this] at h3'
        exact .saved _ _ _ _ h3'
      | false =>
        rcases k2 with h | h
        · rw [h] at h3'; exact .failed _ _ _ _ h3'
        · rw [h] at h3'; exact .unsure _ _ _ _ h3'

/-- An invariant of state files holds while the history is written. -/
theorem always_addToHistory {φ : Bool} {I : Bucket C → Prop} {gz : Bool} {s : String} {t : Nat} {info : C} {b : Bucket C}
    (ho : Only gz s b) (hI : ∀ b', (∀ f, f.inHistory s = false → b'.get f = b.get f) → I b') :
    Always φ I (addToHistory gz s t info) b fun r b' => (∀ f, f.inHistory s = false → b'.get f = b.get f) ∧
      (r = true → b'.content (.history s t gz) = some info ∧ b'.content (.checkpoint s t gz) = b.current s) := by
  unfold addToHistory
  refine always_call (hI b fun _ _ => rfl) fun r b1 ha => ?_
  have fr1 : ∀ f, f.inHistory s = false → b1.get f = b.get f := fun f hf => act_frame ha f (fun h => by
    rw [show f = .history s t gz from h] at hf; simp [File.inHistory] at hf)
  have ho1 : Only gz s b1 := by unfold Only at *; rw [fr1 _ rfl]; exact ho
  have hc1 : b1.current s = b.current s := current_state fun g => fr1 _ rfl
  cases r with
  | ok =>
    refine always_bind' (always_stackPath (hI b1 fr1) fun g hg => ?_)
    refine always_call (hI b1 fr1) fun r b2 ha2 => ?_
    have fr2 : ∀ f, f.inHistory s = false → b2.get f = b.get f := fun f hf => by
      rw [act_frame ha2 f (fun h => by rw [show f = .checkpoint s t gz from h] at hf; simp [File.inHistory] at hf), fr1 f hf]
    cases r with
    | ok =>
      refine always_pure (hI b2 fr2) ⟨fr2, fun _ => ?_⟩
      rcases act_copy ha2 with ⟨_, h, _⟩ | ⟨o, now, h, h'⟩
      · exact absurd rfl h
      · constructor
        · rw [Bucket.content, act_frame ha2 _ (fun h => by cases h)]
          rcases act_write ha with ⟨_, h⟩ | ⟨now, _, h⟩
          · cases h
          · rw [h]; rfl
        · have : g = gz := by
            by_cases e : g = gz
            · exact e
            · have e : g = !gz := by cases g <;> cases gz <;> simp_all
              subst e
              unfold Only at ho1
              rw [ho1] at h; cases h
          subst this
          rw [← hc1, current_only ho1, Bucket.content, h', Bucket.content, h]; rfl
    | err => exact always_pure (hI b2 fr2) ⟨fr2, fun h => by cases h⟩
    | notFound => exact always_pure (hI b2 fr2) ⟨fr2, fun h => by cases h⟩
    | content c => exact always_pure (hI b2 fr2) ⟨fr2, fun h => by cases h⟩
    | is x => exact always_pure (hI b2 fr2) ⟨fr2, fun h => by cases h⟩
    | found x y => exact always_pure (hI b2 fr2) ⟨fr2, fun h => by cases h⟩
    | files x => exact always_pure (hI b2 fr2) ⟨fr2, fun h => by cases h⟩
  | err => exact always_pure (hI b1 fr1) ⟨fr1, fun h => by cases h⟩
  | notFound => exact always_pure (hI b1 fr1) ⟨fr1, fun h => by cases h⟩
  | content c => exact always_pure (hI b1 fr1) ⟨fr1, fun h => by cases h⟩
  | is x => exact always_pure (hI b1 fr1) ⟨fr1, fun h => by cases h⟩
  | found x y => exact always_pure (hI b1 fr1) ⟨fr1, fun h => by cases h⟩
  | files x => exact always_pure (hI b1 fr1) ⟨fr1, fun h => by cases h⟩

/-- The files that hold backups -/
def File.isBackup (s : String) : File → Bool
  | .backup s' _ _ => s' = s
  | _ => false

theorem always_backupStack {φ : Bool} {I : Bucket C → Prop} {s : String} {t : Nat} {b : Bucket C}
    (hI : ∀ b', (∀ f, f.isBackup s = false → b'.get f = b.get f) → I b') :
    Always φ I (backupStack s t) b fun _ b' => ∀ f, f.isBackup s = false → b'.get f = b.get f := by
  have h0 := hI b fun _ _ => rfl
  unfold backupStack
  refine always_bind' (always_stackPath h0 fun g hg => ?_)
  refine always_call h0 fun r b1 ha => ?_
  obtain ⟨rfl, _⟩ := act_read ha
  cases r with
  | content c =>
    refine always_call h0 fun r b2 ha2 => ?_
    have fr2 : ∀ f, f.isBackup s = false → b2.get f = b1.get f := fun f hf => act_frame ha2 f (fun h => by
      rw [show f = .backup s t g from h] at hf; simp [File.isBackup] at hf)
    cases r <;> exact always_pure (hI b2 fr2) fr2
  | ok => exact always_pure h0 fun _ _ => rfl
  | err => exact always_pure h0 fun _ _ => rfl
  | notFound => exact always_pure h0 fun _ _ => rfl
  | is x => exact always_pure h0 fun _ _ => rfl
  | found x y => exact always_pure h0 fun _ _ => rfl
  | files x => exact always_pure h0 fun _ _ => rfl

/-- Updates, with every point at which they may be interrupted. -/
theorem always_update {φ : Bool} (K : Coder C S) {gz : Bool} {keepAll : Option Nat} {s : String} {t : Nat} {info : C} {engine : S → Engine S}
    {b : Bucket C} {c : C} {st : S} (ho : Only gz s b) (hc : b.current s = some c) (hl : K.load c = some st) :
    Always φ (fun b' => Only gz s b' ∧ Kept (K.save gz) (engine st) (some c) (b'.current s) ∧ ∀ f : File, f.stack ≠ s → b'.get f = b.get f)
      (update K gz keepAll s t info engine) b fun r b' =>
        r = .ok → b'.content (.history s t gz) = some info ∧ b'.content (.checkpoint s t gz) = b'.current s := by
  have h0 : Only gz s b ∧ Kept (K.save gz) (engine st) (some c) (b.current s) ∧ ∀ f : File, f.stack ≠ s → b.get f = b.get f :=
    ⟨ho, by rw [hc]; exact .same _ _, fun _ _ => rfl⟩
  unfold update
  refine always_bind' (always_getStack_only K ho h0 (fun c' st' hl' hc' => ?_) fun r hx => ?_)
  · rw [hc] at hc'; cases hc'; rw [hl] at hl'; cases hl'
    have sa := always_saveAll (φ := φ) K (gz := gz) (keepAll := keepAll) (engine st) ho
    rw [hc] at sa
    refine always_bind' (always_mono sa (fun _ h => h) fun _ b1 h1 _ => ?_)
    have inv : ∀ b', (∀ f : File, (f.inHistory s = false ∧ f.isBackup s = false) → b'.get f = b1.get f) →
        Only gz s b' ∧ Kept (K.save gz) (engine st) (some c) (b'.current s) ∧ ∀ f : File, f.stack ≠ s → b'.get f = b.get f := by
      intro b' h
      refine ⟨?_, ?_, fun f hf => ?_⟩
      · have := h1.1; unfold Only at *; rw [h _ ⟨rfl, rfl⟩]; exact this
      · rw [current_state fun g => h _ ⟨rfl, rfl⟩]; exact h1.2.1
      · rw [h f (by cases f <;> simp_all [File.inHistory, File.isBackup, File.stack])]
        exact h1.2.2 f hf
    refine always_bind' (always_mono (always_addToHistory h1.1 fun b' h => inv b' fun f hf => h f hf.1) (fun _ h => h) fun r1 b2 h2 hq => ?_)
    refine always_bind' (always_mono (always_backupStack fun b' h => inv b' fun f hf => by rw [h f hf.2, hq.1 f hf.1]) (fun _ h => h) fun r2 b3 h3 hq3 => ?_)
    refine always_pure h3 fun hok => ?_
    have hr1 : r1 = true := by
      cases r1 with
      | true => rfl
      | false => simp at hok
    obtain ⟨k1, k2⟩ := hq.2 hr1
    have hcur : b3.current s = b1.current s := by
      rw [current_state fun g => hq3 _ rfl, current_state fun g => hq.1 _ rfl]
    refine ⟨?_, ?_⟩
    · rw [Bucket.content, hq3 _ rfl]; exact k1
    · rw [hcur, Bucket.content, hq3 _ rfl]; exact k2
  · cases r with
    | ok st => exact absurd rfl (hx st)
    | notFound => exact always_pure h0 fun h => by cases h
    | err => exact always_pure h0 fun h => by cases h

/-- **C194** Wherever an update stops, however calls fail: the state file of the stack has what it had before or a state that the
engine saved; once the engine was told that a state is saved, that one or one saved later. Files of other stacks are as they were. -/
theorem update_kept_partial {φ : Bool} (K : Coder C S) {gz : Bool} {keepAll : Option Nat} {s : String} {t : Nat} {info : C} {engine : S → Engine S}
    {b b' : Bucket C} {p : Prog C Out} {c : C} {st : S} (ho : Only gz s b) (hc : b.current s = some c) (hl : K.load c = some st)
    (hr : Reach φ (update K gz keepAll s t info engine) b p b') :
    Kept (K.save gz) (engine st) (some c) (b'.current s) ∧ ∀ f : File, f.stack ≠ s → b'.get f = b.get f :=
  (always_reach (always_update K ho hc hl) hr).1.2

/-- **C194** When an update reports success, its entry in the history is there, with the state that the stack now has. -/
theorem update_history_partial {φ : Bool} (K : Coder C S) {gz : Bool} {keepAll : Option Nat} {s : String} {t : Nat} {info : C} {engine : S → Engine S}
    {b b' : Bucket C} {c : C} {st : S} (ho : Only gz s b) (hc : b.current s = some c) (hl : K.load c = some st)
    (hr : Reach φ (update K gz keepAll s t info engine) b (.done .ok) b') :
    b'.content (.history s t gz) = some info ∧ b'.content (.checkpoint s t gz) = b'.current s :=
  (always_reach (always_update K ho hc hl) hr).2 .ok rfl rfl

/-- The states that an engine may save -/
inductive Saves : Engine S → S → Prop
  | here (st next) : Saves (.save st next) st
  | later (st next r st') : Saves (next r) st' → Saves (.save st next) st'

/-- **C194** So there is always a state file, with what was there or something that the engine saved. -/
theorem update_never_lost_partial {φ : Bool} (K : Coder C S) {gz : Bool} {keepAll : Option Nat} {s : String} {t : Nat} {info : C} {engine : S → Engine S}
    {b b' : Bucket C} {p : Prog C Out} {c : C} {st : S} (ho : Only gz s b) (hc : b.current s = some c) (hl : K.load c = some st)
    (hr : Reach φ (update K gz keepAll s t info engine) b p b') :
    b'.current s = some c ∨ ∃ st', Saves (engine st) st' ∧ b'.current s = some (K.save gz st') := by
  have h := (update_kept_partial K ho hc hl hr).1
  have key : ∀ (e : Engine S) (o x : Option C), Kept (K.save gz) e o x → x = o ∨ ∃ st', Saves e st' ∧ x = some (K.save gz st') := by
    intro e o x hk
    induction hk with
    | same => exact .inl rfl
    | saved st next o x _ ih =>
      rcases ih with h | ⟨st', h, h'⟩
      · exact .inr ⟨st, .here _ _, h⟩
      · exact .inr ⟨st', .later _ _ _ _ h, h'⟩
    | failed st next o x _ ih =>
      rcases ih with h | ⟨st', h, h'⟩
      · exact .inl h
      · exact .inr ⟨st', .later _ _ _ _ h, h'⟩
    | unsure st next o x _ ih =>
      rcases ih with h | ⟨st', h, h'⟩
      · exact .inr ⟨st, .here _ _, h⟩
      · exact .inr ⟨st', .later _ _ _ _ h, h'⟩
  exact key _ _ _ h

/-- An engine that saves a state, and another one if that worked. -/
def demoEngine (st : Nat) : Engine Nat := .save (st + 10) fun r => if r then .save (st + 20) fun _ => .stop else .stop

example : ∃ b', Reach false (update demo false none "dev" 9 60 demoEngine) demoPlain (.done .ok) b' ∧ b'.current "dev" = some 27 ∧
    b'.content (.history "dev" 9 false) = some 60 ∧ b'.content (.checkpoint "dev" 9 false) = some 27 :=
  ⟨_, play_reach false (oks 30) _ _ (oks_ok 30), by decide⟩
example : ∃ p b', Reach true (update demo false none "dev" 9 60 demoEngine) demoPlain p b' ∧ b'.current "dev" = some 17 :=
  ⟨_, _, play_reach true (oks 8) _ _ (fun h => by cases h), by decide⟩
/-- What the claim excludes: after the first save succeeded the old state is gone for good. -/
example : ¬ Kept id (.save 17 fun _ => .stop : Engine Nat) (some 7) (some 8) := by
  intro h
  cases h with
  | saved _ _ _ _ h => cases h
  | failed _ _ _ _ h => cases h
  | unsure _ _ _ _ h => cases h

/-! ## Pages of the history -/

/-- The entries of a listing, the last one first. -/
def entries (files : List File) : List File := (files.filter fun | .history .. => true | _ => false).reverse

/-- **C195** The pages of the history, one after the other, are the history: nothing is left out and nothing comes twice. -/
theorem pages_all (files : List File) (size k : Nat) (hs : 0 < size) (hk : (entries files).length ≤ k * size) :
    (List.range k).flatMap (fun i : Nat => page files size ((i : Int) + 1)) = entries files := by
  have page_eq : ∀ i : Nat, page files size ((i : Int) + 1) = ((entries files).drop (i * size)).take size := by
    intro i
    unfold page
    rw [if_neg (by omega)]
    have h1 : ¬ ((i : Int) + 1 < 1) := by omega
    simp only [h1, if_false]
    have h2 : ((i : Int) + 1 - 1).toNat = i := by omega
    rw [h2]
    rfl
  have key : ∀ k, (List.range k).flatMap (fun i : Nat => page files size ((i : Int) + 1)) = (entries files).take (k * size) := by
    intro k
    induction k with
    | zero => simp
    | succ k ih =>
      rw [List.range_succ, List.flatMap_append, ih]
      simp only [List.flatMap_cons, List.flatMap_nil, List.append_nil]
      rw [page_eq, Nat.succ_mul, List.take_add]
  rw [key, List.take_of_length_le hk]

/-- **C195** A page has at most as many entries as asked for; if there is no limit it has all; and numbers below one are the first page. -/
theorem page_length (files : List File) (size : Nat) (n : Int) :
    (0 < size → (page files size n).length ≤ size) ∧ page files 0 n = entries files ∧ (n < 1 → page files size n = page files size 1) := by
  refine ⟨fun hs => ?_, ?_, fun hn => ?_⟩
  · unfold page
    rw [if_neg (by omega)]
    exact List.length_take_le _ _
  · unfold page
    rw [if_pos rfl]; rfl
  · unfold page
    by_cases hs : size = 0
    · rw [if_pos hs, if_pos hs]
    · rw [if_neg hs, if_neg hs]
      simp only [if_pos hn]
      rfl

/-- The time of a file in the history -/
def File.time : File → Nat
  | .history _ t _ => t
  | .checkpoint _ t _ => t
  | _ => 0

/-- **C195** If the listing has older entries first, every page has newer entries first, and what is on later pages is older. -/
theorem pages_sorted (files : List File) (size : Nat) (hs : 0 < size) (h : files.Pairwise fun f g => f.time ≤ g.time) (i j : Nat) (hij : i < j) :
    (page files size ((i : Int) + 1)).Pairwise (fun f g => g.time ≤ f.time) ∧
      ∀ f ∈ page files size ((i : Int) + 1), ∀ g ∈ page files size ((j : Int) + 1), g.time ≤ f.time := by
  have page_eq : ∀ i : Nat, page files size ((i : Int) + 1) = ((entries files).drop (i * size)).take size := by
    intro i
    unfold page
    rw [if_neg (by omega)]
    have h1 : ¬ ((i : Int) + 1 < 1) := by omega
    simp only [h1, if_false]
    have h2 : ((i : Int) + 1 - 1).toNat = i := by omega
    rw [h2]
    rfl
  have he : (entries files).Pairwise fun f g => g.time ≤ f.time := by
    unfold entries
    rw [List.pairwise_reverse]
    exact h.filter _
  rw [page_eq, page_eq]
  refine ⟨(he.sublist (List.drop_sublist _ _)).sublist (List.take_sublist _ _), fun f hf g hg => ?_⟩
  have hlt : i * size + size ≤ j * size := by
    have : (i + 1) * size ≤ j * size := Nat.mul_le_mul_right _ hij
    rw [Nat.succ_mul] at this; exact this
  have hf' : f ∈ (entries files).take (i * size + size) := by
    rw [List.take_add]
    exact List.mem_append_right _ hf
  have hg' : g ∈ (entries files).drop (i * size + size) := by
    have : g ∈ (entries files).drop (j * size) := List.mem_of_mem_take hg
    obtain ⟨d, hd⟩ := Nat.le.dest hlt
    rw [← hd, ← List.drop_drop] at this
    exact List.mem_of_mem_drop this
  rw [← List.take_append_drop (i * size + size) (entries files)] at he
  exact (List.pairwise_append.mp he).2.2 f hf' g hg'

example : page [.history "dev" 1 false, .checkpoint "dev" 1 false, .history "dev" 2 false, .history "dev" 3 false] 2 2 = [.history "dev" 1 false] := by
  decide
example : page [.history "dev" 1 false, .checkpoint "dev" 1 false, .history "dev" 2 false, .history "dev" 3 false] 2 0 =
    [.history "dev" 3 false, .history "dev" 2 false] := by decide

end Pulumi.Filestate
