import Verif.Filestate.Commands
/-! # Renaming and updating stacks (C193, C194) -/
namespace Pulumi.Filestate

variable {C S α β : Type}

/-! ## Moving the history -/

theorem moved_some {old new : String} {f f' : File} (h : f.moved old new = some f') : f.stack = old ∧ f'.stack = new ∧
    f.inHistory old = true ∧ f'.inHistory new = true := by
  cases f with
  | history s t gz =>
    simp only [File.moved] at h
    split at h
    · rename_i e; subst e; cases h; exact ⟨rfl, rfl, decide_eq_true rfl, decide_eq_true rfl⟩
    · cases h
  | checkpoint s t gz =>
    simp only [File.moved] at h
    split at h
    · rename_i e; subst e; cases h; exact ⟨rfl, rfl, decide_eq_true rfl, decide_eq_true rfl⟩
    · cases h
  | state => cases h
  | bak => cases h
  | retained => cases h
  | backup => cases h

theorem moved_inj {old new : String} {f g f' : File} (hf : f.moved old new = some f') (hg : g.moved old new = some f') : f = g := by
  have h1 := (moved_some hf).1
  have h2 := (moved_some hg).1
  cases f <;> cases g <;> simp only [File.moved] at hf hg <;> (try cases hf; done) <;> (try cases hg; done) <;>
    simp only [File.stack] at h1 h2 <;> subst h1 <;> subst h2 <;> rw [if_pos rfl] at hf hg <;> cases hf <;> cases hg <;> rfl

/-- Where moving the history may be. -/
structure Moving (old new : String) (b b' : Bucket C) : Prop where
  frame : ∀ f : File, f.moved old new = none → (∀ g : File, g.moved old new ≠ some f) → b'.get f = b.get f
  kept : ∀ f f' : File, f.moved old new = some f' → b'.content f = b.content f ∨ (b'.content f = none ∧ b'.content f' = b.content f)

theorem always_moveAll {φ : Bool} {old new : String} (hne : old ≠ new) (l ds : List File) {b b1 : Bucket C} (h1 : Moving old new b b1)
    (hds : ∀ f ∈ ds, f.stack = old ∧ b1.get f = none) :
    Always φ (Moving old new b) (moveAll old new l) b1 fun r b' => r = true → ∀ f, f ∈ ds ∨ f ∈ l → (f.moved old new = none → f ∈ ds) → b'.get f = none := by
  induction l generalizing b1 ds with
  | nil => exact ⟨h1, fun _ f hf _ => (hf.elim (fun h => h1.1 |> fun _ => (hds f h).2) fun h => by cases h)⟩
  | cons f l ih =>
    unfold moveAll
    cases hm : f.moved old new with
    | none =>
      refine always_mono (ih ds h1 hds) (fun _ h => h) fun r b' _ h hr g hg hn => ?_
      rcases hg with hg | hg
      · exact h hr g (.inl hg) hn
      · rcases List.mem_cons.mp hg with e | hg
        · subst e; exact h hr g (.inl (hn hm)) hn
        · exact h hr g (.inr hg) hn
    | some f' =>
      obtain ⟨hfo, hfn, _, _⟩ := moved_some hm
      have hff : f ≠ f' := fun e => hne (by rw [← hfo, e, hfn])
      refine always_call h1 fun r b2 ha => ?_
      have h2f : b2.get f = b1.get f := act_frame ha f (fun h => hff h)
      have h2 : Moving old new b b2 := by
        refine ⟨fun g hg hg' => ?_, fun g g' hg => ?_⟩
        · rw [act_frame ha g (fun h => hg' f (by rw [hm]; exact congrArg some (show g = f' from h).symm)), h1.frame g hg hg']
        · obtain ⟨hgo, hgn, _, _⟩ := moved_some hg
          have hgf : b2.content g = b1.content g := by
            rw [Bucket.content, act_frame ha g (fun h => hne (by rw [← hgo, show g = f' from h, hfn]))]; rfl
          by_cases e : g = f
          · subst e
            rw [hm] at hg; cases hg
            rw [hgf]
            rcases h1.kept g f' hm with h | ⟨h, h'⟩
            · exact .inl h
            · right
              refine ⟨h, ?_⟩
              rcases act_copy ha with ⟨hx, _⟩ | ⟨o, now, hx, _⟩
              · rw [Bucket.content, hx]; exact h'
              · rw [Bucket.content, hx] at h; cases h
          · have hgf' : b2.content g' = b1.content g' := by
              rw [Bucket.content, act_frame ha g' (fun h => e (moved_inj hg (by rw [hm]; exact congrArg some (show g' = f' from h).symm)))]; rfl
            rw [hgf, hgf']
            exact h1.kept g g' hg
      cases r with
      | ok =>
        refine always_call h2 fun r2 b3 hd => ?_
        have h3 : Moving old new b b3 := by
          refine ⟨fun g hg hg' => ?_, fun g g' hg => ?_⟩
          · rw [act_frame hd g (fun h => by rw [show g = f from h, hm] at hg; cases hg), h2.frame g hg hg']
          · obtain ⟨hgo, hgn, _, _⟩ := moved_some hg
            have hgf' : b3.content g' = b2.content g' := by
              rw [Bucket.content, act_frame hd g' (fun h => hne (by rw [← hgn, show g' = f from h, hfo]))]; rfl
            by_cases e : g = f
            · subst e
              rw [hm] at hg; cases hg
              rcases act_copy ha with ⟨_, hx, _⟩ | ⟨o, now, hx, hx'⟩
              · exact absurd rfl hx
              · have hcur : b2.content g = some o.content := by rw [Bucket.content, h2f, hx]; rfl
                rcases h2.kept g f' hm with h | ⟨h, _⟩
                · rcases act_delete hd with ⟨hy, _⟩ | hy
                  · left; rw [← h, Bucket.content, hy]; rfl
                  · right
                    refine ⟨by rw [Bucket.content, hy]; rfl, ?_⟩
                    rw [hgf', ← h, hcur, Bucket.content, hx']; rfl
                · rw [hcur] at h; cases h
            · have hgf : b3.content g = b2.content g := by
                rw [Bucket.content, act_frame hd g (fun h => e h)]; rfl
              rw [hgf, hgf']
              exact h2.kept g g' hg
        cases r2 with
        | ok =>
          have hgone : b3.get f = none := by
            rcases act_delete hd with ⟨_, hy, _⟩ | hy
            · cases hy
            · exact hy
          refine always_mono (ih (f :: ds) h3 fun g hg => ?_) (fun _ h => h) fun r b' _ h hr g hg hn => ?_
          · rcases List.mem_cons.mp hg with e | hg
            · subst e; exact ⟨hfo, hgone⟩
            · refine ⟨(hds g hg).1, ?_⟩
              have hgf' : g ≠ f' := fun e => hne (by rw [← (hds g hg).1, e, hfn])
              by_cases e : g = f
              · subst e; exact hgone
              · rw [act_frame hd g (fun h => e h), act_frame ha g (fun h => hgf' h)]
                exact (hds g hg).2
          · refine h hr g ?_ fun hn' => List.mem_cons_of_mem _ (hn hn')
            rcases hg with hg | hg
            · exact .inl (List.mem_cons_of_mem _ hg)
            · rcases List.mem_cons.mp hg with e | hg
              · subst e; exact .inl List.mem_cons_self
              · exact .inr hg
        | err => exact always_pure h3 fun h => by cases h
        | notFound => exact always_pure h3 fun h => by cases h
        | content c => exact always_pure h3 fun h => by cases h
        | is x => exact always_pure h3 fun h => by cases h
        | found x y => exact always_pure h3 fun h => by cases h
        | files x => exact always_pure h3 fun h => by cases h
      | err => exact always_pure h2 fun h => by cases h
      | notFound => exact always_pure h2 fun h => by cases h
      | content c => exact always_pure h2 fun h => by cases h
      | is x => exact always_pure h2 fun h => by cases h
      | found x y => exact always_pure h2 fun h => by cases h
      | files x => exact always_pure h2 fun h => by cases h

theorem always_renameHistory {φ : Bool} {old new : String} (hne : old ≠ new) (b : Bucket C) :
    Always φ (Moving old new b) (renameHistory old new) b fun r b' => r = true → ∀ f f', f.moved old new = some f' → b'.get f = none := by
  have h0 : Moving old new b b := ⟨fun _ _ _ => rfl, fun _ _ _ => .inl rfl⟩
  unfold renameHistory
  refine always_call h0 fun r b1 ha => ?_
  obtain ⟨rfl, hr⟩ := act_listHistory ha
  rcases hr with ⟨rfl, _⟩ | rfl
  · exact always_pure h0 fun h => by cases h
  · refine always_mono (always_moveAll hne _ [] h0 fun f hf => by cases hf) (fun _ h => h) fun r b' hI h hr f f' hf => ?_
    by_cases hm : b1.get f = none
    · rcases hI.kept f f' hf with h | ⟨h, _⟩
      · rw [Bucket.content, Bucket.content, hm] at h
        cases hx : b'.get f with
        | none => rfl
        | some o => rw [hx] at h; cases h
      · unfold Bucket.content at h
        cases hx : b'.get f with
        | none => rfl
        | some o => rw [hx] at h; cases h
    · exact h hr f (.inr (List.mem_filter.mpr ⟨get_mem hm, (moved_some hf).2.2.1⟩)) fun hn => by rw [hf] at hn; cases hn

/-- **C193** Wherever moving the history to another name stops, however calls fail: no file of it is lost; each is under the old name or, as it
was, under the new one. -/
theorem renameHistory_keeps {φ : Bool} {old new : String} (hne : old ≠ new) {b b' : Bucket C} {p : Prog C Bool}
    (hr : Reach φ (renameHistory old new) b p b') {f f' : File} (hf : f.moved old new = some f') {c : C} (hc : b.content f = some c) :
    b'.content f = some c ∨ b'.content f' = some c := by
  rcases (always_reach (always_renameHistory hne b) hr).1.kept f f' hf with h | ⟨_, h⟩
  · exact .inl (by rw [h, hc])
  · exact .inr (by rw [h, hc])

/-- **C193** When it reports success, all of the history is under the new name and none under the old one. -/
theorem renameHistory_moves {φ : Bool} {old new : String} (hne : old ≠ new) {b b' : Bucket C}
    (hr : Reach φ (renameHistory old new) b (.done true) b') {f f' : File} (hf : f.moved old new = some f') :
    b'.get f = none ∧ ∀ c, b.content f = some c → b'.content f' = some c := by
  obtain ⟨h1, h2⟩ := always_reach (always_renameHistory hne b) hr
  have hn := h2 true rfl rfl f f' hf
  refine ⟨hn, fun c hc => ?_⟩
  rcases h1.kept f f' hf with h | ⟨_, h⟩
  · rw [Bucket.content, hn, hc] at h; cases h
  · rw [h, hc]

example : (File.history "dev" 1 false).moved "dev" "prod" = some (.history "prod" 1 false) := by decide
example : ∃ b', Reach false (renameHistory "dev" "prod") demoPlain (.done true) b' ∧ b'.content (.history "prod" 1 false) = some 50 ∧
    b'.content (.checkpoint "prod" 1 false) = some 7 := ⟨_, play_reach false (oks 9) _ _ (oks_ok 9), by decide⟩
example : ∃ b', Reach true (renameHistory "dev" "prod") demoPlain (.done false) b' ∧ b'.content (.history "prod" 1 false) = some 50 ∧
    b'.content (.checkpoint "dev" 1 false) = some 7 :=
  ⟨_, play_reach true [.ok, .ok, .ok, .late] _ _ (fun h => by cases h), by decide⟩

/-! ## Renaming -/

/-- Files of other stacks than this, and state files, stay as they are. -/
theorem moving_state {old new : String} {b b' : Bucket C} (h : Moving old new b b') (s : String) (g : Bool) :
    b'.get (.state s g) = b.get (.state s g) := by
  refine h.frame _ rfl fun f hf => ?_
  have := (moved_some hf).2.2.2
  cases this

theorem current_state {s : String} {b b' : Bucket C} (h : ∀ g, b'.get (.state s g) = b.get (.state s g)) : b'.current s = b.current s := by
  unfold Bucket.current
  rw [h, h]

theorem saving_other {φ : Bool} {s t : String} {gz : Bool} {new : C} {b b' : Bucket C} (h : Saving φ s gz new b b') (hst : t ≠ s) (f : File)
    (hf : f.stack = t) : b'.get f = b.get f := by
  refine h.frame f ?_ ?_ ?_ <;> intro g <;>
    first | (intro u e; subst e; exact hst hf.symm) | (intro e; subst e; exact hst hf.symm)

/-- **C193** Wherever renaming a stack stops, however calls fail: the stack is there under the old name as it was, or under the new
one with the new state. -/
theorem rename_keeps_partial {φ : Bool} (K : Coder C S) {gz : Bool} {keepAll : Option Nat} {edit : S → S} {old new : String} {b b' : Bucket C}
    {p : Prog C Out} {c : C} {st : S} (hne : old ≠ new) (ho : Only gz old b) (hn : Only gz new b) (hc : b.current old = some c)
    (hl : K.load c = some st) (hr : Reach φ (rename K gz keepAll edit old new) b p b') :
    (b'.current old = some c ∨ b'.current new = some (K.save gz (edit st))) ∧
      ∀ r, p = .done r → r = .ok → b'.current new = some (K.save gz (edit st)) := by
  have : Always φ (fun b' => b'.current old = some c ∨ b'.current new = some (K.save gz (edit st))) (rename K gz keepAll edit old new) b
      fun r b' => r = .ok → b'.current new = some (K.save gz (edit st)) := by
    have sv : ∀ b', Saving φ new gz (K.save gz (edit st)) b b' → b'.current old = some c := fun b' h => by
      rw [current_frame fun f hf => saving_other h hne f hf, hc]
    unfold rename
    refine always_bind' (always_getStack_only K ho (.inl hc) (fun c' st' hl' hc' => ?_) fun r hx => ?_)
    · rw [hc] at hc'; cases hc'; rw [hl] at hl'; cases hl'
      refine always_bind' (always_stackPath (.inl hc) fun g _ => ?_)
      refine always_call (.inl hc) fun r b1 ha => ?_
      obtain ⟨rfl, hr⟩ := act_exists ha
      rcases hr with ⟨rfl, _⟩ | rfl
      · exact always_pure (.inl hc) fun h => by cases h
      · cases (b1.get (.state new g)).isSome with
        | true => exact always_pure (.inl hc) fun h => by cases h
        | false =>
          refine always_bind' (always_mono (always_saveStack φ K new gz keepAll (edit st) b1) (fun b' h => .inl (sv b' h)) fun r b2 h2 hq => ?_)
          cases r with
          | false => exact always_pure (.inl (sv b2 h2)) fun h => by cases h
          | true =>
            have ho2 : Only gz new b2 := by
              unfold Only at *
              rcases h2.other with h | h
              · rw [h, hn]
              · exact h
            have hc2 : b2.current new = some (K.save gz (edit st)) := by rw [current_only ho2]; exact hq.1 rfl
            refine always_bind' (always_stackPath (.inr hc2) fun g' _ => ?_)
            have bk : ∀ b', Backed φ old g' false b2 b' → b'.current new = some (K.save gz (edit st)) := fun b' h => by
              rw [current_frame fun f hf => h.frame f (fun e => hne (by rw [← hf, e]; rfl)) (fun e => hne (by rw [← hf, e]; rfl)), hc2]
            refine always_bind' (always_backupTarget (fun b' h => .inr (bk b' h)) fun b3 h3 _ _ => ?_)
            have mv : ∀ b', Moving old new b3 b' → b'.current new = some (K.save gz (edit st)) := fun b' h => by
              rw [current_state fun g => moving_state h new g, bk b3 h3]
            refine always_bind' (always_mono (always_renameHistory hne b3) (fun b' h => .inr (mv b' h)) fun r b4 h4 _ => ?_)
            cases r <;> exact always_pure (.inr (mv b4 h4)) fun _ => mv b4 h4
    · cases r with
      | ok st => exact absurd rfl (hx st)
      | notFound => exact always_pure (.inl hc) fun h => by cases h
      | err => exact always_pure (.inl hc) fun h => by cases h
  obtain ⟨h1, h2⟩ := always_reach this hr
  exact ⟨h1, fun r e => h2 r e⟩

/-- **C193** A stack that is there is not overwritten by renaming another one to its name: nothing changes, wherever it stops. -/
theorem rename_refuses_partial {φ : Bool} (K : Coder C S) {gz : Bool} {keepAll : Option Nat} {edit : S → S} {old new : String} {b b' : Bucket C}
    {p : Prog C Out} {c : C} (ho : Only false new b ∨ φ = false) (hc : b.current new = some c)
    (hr : Reach φ (rename K gz keepAll edit old new) b p b') : b' = b ∧ ∀ r, p = .done r → r = .exists ∨ r = .error := by
  have : Always φ (fun b' => b' = b) (rename K gz keepAll edit old new) b fun r _ => r = .exists ∨ r = .error := by
    unfold rename
    refine always_bind' (always_getStack K rfl (fun c' st' _ _ => ?_) (fun _ => always_pure rfl (.inr rfl)) (fun _ => always_pure rfl (.inr rfl)))
    refine always_bind' (always_stackPath rfl fun g hg => ?_)
    refine always_call rfl fun r b1 ha => ?_
    obtain ⟨rfl, hr⟩ := act_exists ha
    rcases hr with ⟨rfl, _⟩ | rfl
    · exact always_pure rfl (.inr rfl)
    · have hsome : (b1.get (.state new g)).isSome = true := by
        have hcont : b1.content (.state new g) = some c := by
          rcases hg with hg | ⟨hφ, rfl⟩
          · rw [hg, hc]
          · rcases ho with ho | ho
            · rw [← current_only ho, hc]
            · rw [ho] at hφ; cases hφ
        cases hx : b1.get (.state new g) with
        | none => rw [Bucket.content, hx] at hcont; cases hcont
        | some o => rfl
      rw [hsome]
      exact always_pure rfl (.inl rfl)
  exact always_reach this hr

/-- **C193** If no call fails and renaming reports success, the stack is under the new name only, with all of its history. -/
theorem rename_completes (K : Coder C S) {gz : Bool} {keepAll : Option Nat} {edit : S → S} {old new : String} {b b' : Bucket C} {c : C} {st : S}
    (hne : old ≠ new) (ho : Only gz old b) (hc : b.current old = some c) (hl : K.load c = some st)
    (hr : Reach false (rename K gz keepAll edit old new) b (.done .ok) b') :
    b'.current old = none ∧ b'.current new = some (K.save gz (edit st)) ∧ b'.content (.bak old gz) = some c ∧
      ∀ f f', f.moved old new = some f' → b'.get f = none ∧ ∀ x, b.content f = some x → b'.content f' = some x := by
  have hs : b.get (.state old gz) ≠ none := fun h => by rw [current_only ho, Bucket.content, h] at hc; cases hc
  have : Always false (fun _ => True) (rename K gz keepAll edit old new) b fun r b' => r = .ok →
      b'.current old = none ∧ b'.current new = some (K.save gz (edit st)) ∧ b'.content (.bak old gz) = some c ∧
      ∀ f f', f.moved old new = some f' → b'.get f = none ∧ ∀ x, b.content f = some x → b'.content f' = some x := by
    unfold rename
    refine always_bind' (always_getStack_only K ho trivial (fun c' st' hl' hc' => ?_) fun r hx => ?_)
    · rw [hc] at hc'; cases hc'; rw [hl] at hl'; cases hl'
      refine always_bind' (always_stackPath trivial fun g _ => ?_)
      refine always_call trivial fun r b1 ha => ?_
      obtain ⟨rfl, hr⟩ := act_exists ha
      rcases hr with ⟨rfl, _⟩ | rfl
      · exact always_pure trivial fun h => by cases h
      · cases (b1.get (.state new g)).isSome with
        | true => exact always_pure trivial fun h => by cases h
        | false =>
          refine always_bind' (always_mono (always_saveStack false K new gz keepAll (edit st) b1) (fun b' h => trivial) fun r b2 h2 hq => ?_)
          cases r with
          | false => exact always_pure trivial fun h => by cases h
          | true =>
            obtain ⟨hq1, hq2, _⟩ := hq.2 rfl
            have hc2 : b2.current new = some (K.save gz (edit st)) := by rw [current_only hq2]; exact hq1
            have fr2 : ∀ f : File, f.stack = old → b2.get f = b1.get f := fun f hf => saving_other h2 hne f hf
            have ho2 : Only gz old b2 := by unfold Only at *; rw [fr2 _ rfl]; exact ho
            refine always_bind' (always_stackPath trivial fun g' hg' => ?_)
            have e : g' = gz := by
              rcases hg' with hg' | ⟨hg', _⟩
              · by_cases e : g' = gz
                · exact e
                · have e : g' = !gz := by cases g' <;> cases gz <;> simp_all
                  subst e
                  rw [current_frame fr2, hc] at hg'
                  unfold Only at ho2
                  rw [Bucket.content, ho2] at hg'; cases hg'
              · cases hg'
            subst e
            refine always_bind' (always_backupTarget (fun _ _ => trivial) fun b3 h3 hg3 hk3 => ?_)
            have hc3 : b3.current new = some (K.save g' (edit st)) := by
              rw [current_frame fun f hf => h3.frame f (fun e => hne (by rw [← hf, e]; rfl)) (fun e => hne (by rw [← hf, e]; rfl)), hc2]
            have hold3 : ∀ g, b3.get (.state old g) = none := by
              intro g
              by_cases e : g = g'
              · subst e; exact hg3 rfl rfl
              · have e' : g = !g' := by cases g <;> cases g' <;> simp_all
                rw [h3.frame _ (fun h => by cases h) (fun h => e (by cases h; rfl)), e']
                exact ho2
            have hb3 : b3.content (.bak old g') = some c := by
              rcases hk3 rfl with h | h
              · rw [fr2 _ rfl] at h; exact absurd h hs
              · rw [h, Bucket.content, fr2 _ rfl, ← hc, current_only ho]; rfl
            refine always_bind' (always_mono (always_renameHistory hne b3) (fun _ _ => trivial) fun r b4 h4 hq4 => ?_)
            cases r with
            | false => exact always_pure trivial fun h => by cases h
            | true =>
              refine always_pure trivial fun _ => ⟨?_, ?_, ?_, fun f f' hf => ?_⟩
              · unfold Bucket.current
                rw [moving_state h4, moving_state h4, hold3, hold3]
              · rw [current_state fun g => moving_state h4 new g, hc3]
              · rw [Bucket.content, h4.frame _ rfl fun f hf => by have := (moved_some hf).2.2.2; cases this]
                exact hb3
              · have hgone := hq4 rfl f f' hf
                refine ⟨hgone, fun x hx => ?_⟩
                obtain ⟨hfo, _, hfh, _⟩ := moved_some hf
                have hx3 : b3.content f = some x := by
                  rw [Bucket.content, h3.frame f (fun e => by subst e; cases hfh) (fun e => by subst e; cases hfh), fr2 f hfo]
                  exact hx
                rcases h4.kept f f' hf with h | ⟨_, h⟩
                · rw [Bucket.content, hgone, hx3] at h; cases h
                · rw [h, hx3]
    · cases r with
      | ok st => exact absurd rfl (hx st)
      | notFound => exact always_pure trivial fun h => by cases h
      | err => exact always_pure trivial fun h => by cases h
  exact (always_reach this hr).2 .ok rfl rfl

example : Only false "dev" demoPlain ∧ Only false "prod" demoPlain ∧ demoPlain.current "dev" = some 7 ∧ demo.load 7 = some 7 := by decide
example : ∃ b', Reach false (rename demo false none (· + 1) "dev" "prod") demoPlain (.done .ok) b' ∧ b'.current "dev" = none ∧
    b'.current "prod" = some 8 ∧ b'.content (.history "prod" 1 false) = some 50 :=
  ⟨_, play_reach false (oks 30) _ _ (oks_ok 30), by decide⟩
example : ∃ b', Reach false (rename demo false none (· + 1) "dev" "prod") demoTwo (.done .exists) b' ∧ b' = demoTwo :=
  ⟨_, play_reach false (oks 30) _ _ (oks_ok 30), by decide⟩

/-- **C193, finding** If the listing with which the state file of the new name is looked for fails, that is taken for there being no compressed
one: a compressed stack of that name is overwritten, and renaming reports success. -/
theorem rename_overwrites : ∃ b', Reach true (rename demo true none id "dev" "prod")
    ⟨[(.state "dev" true, ⟨7, 1⟩), (.state "prod" true, ⟨8, 1⟩)], 1⟩ (.done .ok) b' ∧ b'.current "prod" = some 7 :=
  ⟨_, play_reach true ([.ok, .ok, .fail] ++ oks 30) _ _ (fun h => by cases h), by decide⟩

/-- **C193, finding** If the old state file cannot be deleted, renaming reports success and leaves the stack under both names, both with the same
resources. -/
theorem rename_doubles : ∃ b', Reach true (rename demo false none id "dev" "prod") demoPlain (.done .ok) b' ∧
    b'.current "dev" = some 7 ∧ b'.current "prod" = some 7 :=
  ⟨_, play_reach true (oks 11 ++ [.fail] ++ oks 30) _ _ (fun h => by cases h), by decide⟩

end Pulumi.Filestate
