import Verif.Detailed.Model
/-!
# What is shown of a provider's detailed diff (C224)
-/
namespace Pulumi.Detailed
open Pulumi.Engine (EV Blob)
open Pulumi.Paths (Key Path Text Kind PropertyDiff)
open Pulumi.Props (VDiff)

/-! ## Specification -/

/-- What a diff may show at a path -/
inductive Mark where
  | added (v : EV)
  | deleted (v : EV)
  | updated (d : VDiff)

/-- What a diff shows at one of its own keys -/
def At : Tree → Key → Mark → Prop
  | .mk a _ _ _, k, .added v => a k = some v
  | .mk _ d _ _, k, .deleted v => d k = some v
  | .mk _ _ u _, k, .updated x => u k = some x

/-- the diff below a key -/
def below : Tree → Key → Option Tree
  | .mk _ _ _ s, k => s k

/-- A diff shows this at this path -/
inductive Shows : Tree → Path → Mark → Prop
  | here {t : Tree} {k : Key} {m : Mark} : At t k m → Shows t [k] m
  | deeper {t c : Tree} {k : Key} {p : Path} {m : Mark} : below t k = some c → Shows c p m → Shows t (k :: p) m

/-- What one entry of a detailed diff is to show, and where, between these old and new properties: at its path what the provider said; but
where on the way there is a property that only one side has, that property as a whole, added or deleted. -/
inductive Means (hash : Blob → Option String) (kind : Kind) : EV → EV → Path → Path → Mark → Prop
  | add {o n : EV} {k : Key} : kind = .add ∨ kind = .addReplace → Means hash kind o n [k] [k] (.added (getProperty k n))
  | delete {o n : EV} {k : Key} : kind = .delete ∨ kind = .deleteReplace → Means hash kind o n [k] [k] (.deleted (getProperty k o))
  | update {o n : EV} {k : Key} {d : VDiff} : kind = .update ∨ kind = .updateReplace →
      Props.diff hash (fun _ => false) (getProperty k o) (getProperty k n) = some (some d) → Means hash kind o n [k] [k] (.updated d)
  | unchanged {o n : EV} {k : Key} : kind = .update ∨ kind = .updateReplace →
      Props.diff hash (fun _ => false) (getProperty k o) (getProperty k n) = some none →
      Means hash kind o n [k] [k] (.updated (.leaf (getProperty k o) (getProperty k n)))
  | appears {o n : EV} {k : Key} {ks : Path} : ks ≠ [] → getProperty k o = .null → getProperty k n ≠ .null →
      Means hash kind o n (k :: ks) [k] (.added (getProperty k n))
  | vanishes {o n : EV} {k : Key} {ks : Path} : ks ≠ [] → getProperty k o ≠ .null → getProperty k n = .null →
      Means hash kind o n (k :: ks) [k] (.deleted (getProperty k o))
  | inside {o n : EV} {k : Key} {ks q : Path} {m : Mark} : ks ≠ [] → (getProperty k o = .null ↔ getProperty k n = .null) →
      Means hash kind (getProperty k o) (getProperty k n) ks q m → Means hash kind o n (k :: ks) (k :: q) m

/-- No path is another, or part of the way to another -/
def Apart (p q : Path) : Prop := ¬ p <+: q ∧ ¬ q <+: p

/-! ## One key of a diff -/

variable {hash : Blob → Option String}

structure Slot where
  a : Option EV
  d : Option EV
  u : Option VDiff
  s : Option Tree

def slot : Tree → Key → Slot
  | .mk a d u s, k => ⟨a k, d k, u k, s k⟩

def setSlot : Tree → Key → Slot → Tree
  | .mk a d u s, k, x => .mk (set a k x.a) (set d k x.d) (set u k x.u) (set s k x.s)

theorem set_self {α : Type} (f : Key → Option α) (k : Key) : set f k (f k) = f := by
  funext k'; simp only [set]; split <;> simp_all

theorem set_same {α : Type} (f : Key → Option α) (k : Key) (v : Option α) : set f k v k = v := by simp [set]

theorem set_ne {α : Type} (f : Key → Option α) {k l : Key} (h : k ≠ l) (v : Option α) : set f k v l = f l := by
  have : ¬ l = k := fun e => h e.symm
  simp [set, this]

theorem set_set {α : Type} (f : Key → Option α) (k : Key) (v w : Option α) : set (set f k v) k w = set f k w := by
  funext k'; simp only [set]; split <;> rfl

theorem set_comm {α : Type} (f : Key → Option α) {k l : Key} (h : k ≠ l) (v w : Option α) :
    set (set f k v) l w = set (set f l w) k v := by
  funext k'; simp only [set]
  by_cases h1 : k' = l <;> by_cases h2 : k' = k <;> simp_all

theorem slot_same (t : Tree) (k : Key) (x : Slot) : slot (setSlot t k x) k = x := by
  cases t; simp [slot, setSlot, set_same]

theorem slot_ne (t : Tree) {k l : Key} (h : k ≠ l) (x : Slot) : slot (setSlot t k x) l = slot t l := by
  cases t; simp [slot, setSlot, set_ne _ h]

theorem setSlot_set (t : Tree) (k : Key) (x y : Slot) : setSlot (setSlot t k x) k y = setSlot t k y := by
  cases t; simp [setSlot, set_set]

theorem setSlot_comm (t : Tree) {k l : Key} (h : k ≠ l) (x y : Slot) : setSlot (setSlot t k x) l y = setSlot (setSlot t l y) k x := by
  cases t; simp [setSlot, set_comm _ h]

/-- what an entry does to the key it begins with -/
def slotOp (hash : Blob → Option String) (kind : Kind) (ks : Path) (old new : EV) (x : Slot) : Option Slot :=
  match ks with
  | [] => match kind with
    | .add => some { x with a := some new }
    | .addReplace => some { x with a := some new }
    | .delete => some { x with d := some old }
    | .deleteReplace => some { x with d := some old }
    | _ => (Props.diff hash (fun _ => false) old new).map (fun d => { x with u := some (d.getD (.leaf old new)), s := none })
  | k :: ks =>
    if old.isNull && !new.isNull then some { x with a := some new }
    else if !old.isNull && new.isNull then some { x with d := some old }
    else (addDiff hash kind (k :: ks) (x.s.getD .empty) old new).map (fun c => { x with s := some c })

theorem addDiff_cons (kind : Kind) (k : Key) (ks : Path) (t : Tree) (o n : EV) :
    addDiff hash kind (k :: ks) t o n =
      (slotOp hash kind ks (getProperty k o) (getProperty k n) (slot t k)).map (setSlot t k) := by
  cases t with
  | mk a d u s =>
  cases ks with
  | nil =>
    cases kind <;> simp [addDiff, leaf, slotOp, Tree.setAdd, Tree.setDel, Tree.setUpd, slot, setSlot, set_self, Function.comp_def]
  | cons l ls =>
    simp only [addDiff, slotOp]
    split
    · simp [Tree.setAdd, slot, setSlot, set_self]
    · split
      · simp [Tree.setDel, slot, setSlot, set_self]
      · simp only [Tree.child, slot, Option.map_map]
        congr 1
        funext c
        simp [Tree.setSub, setSlot, set_self]

theorem At_slot {t t' : Tree} {k : Key} (h : slot t k = slot t' k) (m : Mark) : At t k m ↔ At t' k m := by
  cases t; cases t'
  simp only [slot, Slot.mk.injEq] at h
  cases m <;> simp [At, h]

theorem below_slot (t : Tree) (k : Key) : below t k = (slot t k).s := by cases t; rfl

theorem Shows_slot {t t' : Tree} {k : Key} (h : slot t k = slot t' k) {p : Path} {m : Mark} (hs : Shows t (k :: p) m) :
    Shows t' (k :: p) m := by
  cases hs with
  | here ha => exact .here ((At_slot h m).1 ha)
  | deeper hb hc => exact .deeper (by rw [below_slot] at *; rw [← h]; exact hb) hc

theorem not_shows_empty {p : Path} {m : Mark} : ¬ Shows .empty p m := by
  intro h
  cases h with
  | here ha => cases m <;> simp [At, Tree.empty] at ha
  | deeper hb _ => simp [below, Tree.empty] at hb

theorem isNull_iff (v : EV) : v.isNull = true ↔ v = .null := by cases v <;> simp [EV.isNull]

/-! ## One entry -/

/-- **C224.** An entry shows what it means. -/
theorem shows_meaning {kind : Kind} {p q : Path} {o n : EV} {m : Mark} (hm : Means hash kind o n p q m) :
    ∀ {t t' : Tree}, addDiff hash kind p t o n = some t' → Shows t' q m := by
  induction hm with
  | @add o n k h =>
    intro t t' ha
    rw [addDiff_cons] at ha
    rcases h with rfl | rfl <;> (simp only [slotOp, Option.map_some, Option.some.injEq] at ha; subst ha; cases t; exact .here (by simp [At, setSlot, set_same]))
  | @delete o n k h =>
    intro t t' ha
    rw [addDiff_cons] at ha
    rcases h with rfl | rfl <;> (simp only [slotOp, Option.map_some, Option.some.injEq] at ha; subst ha; cases t; exact .here (by simp [At, setSlot, set_same]))
  | @update o n k d h hd =>
    intro t t' ha
    rw [addDiff_cons] at ha
    rcases h with rfl | rfl <;> (simp only [slotOp, hd, Option.map_some, Option.getD_some, Option.some.injEq] at ha; subst ha; cases t; exact .here (by simp [At, setSlot, set_same]))
  | @unchanged o n k h hd =>
    intro t t' ha
    rw [addDiff_cons] at ha
    rcases h with rfl | rfl <;> (simp only [slotOp, hd, Option.map_some, Option.getD_none, Option.some.injEq] at ha; subst ha; cases t; exact .here (by simp [At, setSlot, set_same]))
  | @appears o n k ks hk ho hn =>
    intro t t' ha
    rw [addDiff_cons] at ha
    obtain ⟨l, ls, rfl⟩ := List.exists_cons_of_ne_nil hk
    have h1 : (getProperty k n).isNull = false := by rw [← Bool.not_eq_true, isNull_iff]; exact hn
    simp only [slotOp, (isNull_iff _).2 ho, h1, Bool.not_false, Bool.and_self, if_true, Option.map_some, Option.some.injEq] at ha
    subst ha; cases t; exact .here (by simp [At, setSlot, set_same])
  | @vanishes o n k ks hk ho hn =>
    intro t t' ha
    rw [addDiff_cons] at ha
    obtain ⟨l, ls, rfl⟩ := List.exists_cons_of_ne_nil hk
    have h1 : (getProperty k o).isNull = false := by rw [← Bool.not_eq_true, isNull_iff]; exact ho
    simp only [slotOp, (isNull_iff _).2 hn, h1, Bool.not_false, Bool.and_self, Bool.false_and, Bool.false_eq_true, if_false, if_true, Option.map_some, Option.some.injEq] at ha
    subst ha; cases t; exact .here (by simp [At, setSlot, set_same])
  | @inside o n k ks q m hk hon _ ih =>
    intro t t' ha
    rw [addDiff_cons] at ha
    obtain ⟨l, ls, rfl⟩ := List.exists_cons_of_ne_nil hk
    rw [← isNull_iff, ← isNull_iff, Bool.coe_iff_coe] at hon
    simp only [slotOp, hon, Bool.and_not_self, Bool.not_and_self, Bool.false_eq_true, if_false, Option.map_map] at ha
    cases hc : addDiff hash kind (l :: ls) ((slot t k).s.getD .empty) (getProperty k o) (getProperty k n) with
    | none => rw [hc] at ha; cases ha
    | some c =>
      rw [hc] at ha
      simp only [Option.map_some, Function.comp, Option.some.injEq] at ha
      subst ha
      refine .deeper (c := c) ?_ (ih hc)
      rw [below_slot, slot_same]

/-- **C224.** It shows something, at its path or at a property on the way to it. -/
theorem has_meaning {kind : Kind} : ∀ {p : Path} {o n : EV} {t t' : Tree}, addDiff hash kind p t o n = some t' →
    ∃ q m, Means hash kind o n p q m ∧ q ≠ [] ∧ q <+: p
  | [], _, _, _, _, h => by simp [addDiff] at h
  | [k], o, n, t, t', h => by
    rw [addDiff_cons] at h
    cases kind
    · exact ⟨_, _, .add (.inl rfl), by simp, by simp⟩
    · exact ⟨_, _, .add (.inr rfl), by simp, by simp⟩
    · exact ⟨_, _, .delete (.inl rfl), by simp, by simp⟩
    · exact ⟨_, _, .delete (.inr rfl), by simp, by simp⟩
    all_goals
      cases hd : Props.diff hash (fun _ => false) (getProperty k o) (getProperty k n) with
      | none => simp [slotOp, hd] at h
      | some r =>
        cases r with
        | none => exact ⟨_, _, .unchanged (by simp) hd, by simp, by simp⟩
        | some d => exact ⟨_, _, .update (by simp) hd, by simp, by simp⟩
  | k :: l :: ls, o, n, t, t', h => by
    by_cases ho : getProperty k o = .null <;> by_cases hn : getProperty k n = .null
    · rw [addDiff_cons] at h
      have h1 := (isNull_iff _).2 ho
      have h2 := (isNull_iff _).2 hn
      simp only [slotOp, h1, h2, Bool.and_not_self, Bool.not_and_self, Bool.false_eq_true, if_false, Option.map_map, Option.map_eq_some_iff] at h
      obtain ⟨c, hc, -⟩ := h
      obtain ⟨q, m, hm, -, hp⟩ := has_meaning hc
      exact ⟨k :: q, m, .inside (by simp) (by simp [ho, hn]) hm, by simp, by simpa using hp⟩
    · exact ⟨_, _, .appears (by simp) ho hn, by simp, by simp⟩
    · exact ⟨_, _, .vanishes (by simp) ho hn, by simp, by simp⟩
    · rw [addDiff_cons] at h
      have h1 : (getProperty k o).isNull = false := by rw [← Bool.not_eq_true, isNull_iff]; exact ho
      have h2 : (getProperty k n).isNull = false := by rw [← Bool.not_eq_true, isNull_iff]; exact hn
      simp only [slotOp, h1, h2, Bool.and_not_self, Bool.not_and_self, Bool.false_eq_true, if_false, Option.map_map, Option.map_eq_some_iff] at h
      obtain ⟨c, hc, -⟩ := h
      obtain ⟨q, m, hm, -, hp⟩ := has_meaning hc
      exact ⟨k :: q, m, .inside (by simp) (by simp [ho, hn]) hm, by simp, by simpa using hp⟩

/-- what changes at one key -/
theorem At_set {t : Tree} {k : Key} {x : Slot} {m : Mark} : At (setSlot t k x) k m ↔
    (∃ v, m = .added v ∧ x.a = some v) ∨ (∃ v, m = .deleted v ∧ x.d = some v) ∨ (∃ d, m = .updated d ∧ x.u = some d) := by
  cases t; cases m <;> simp [At, setSlot, set_same]

theorem At_old {t : Tree} {k : Key} {m : Mark} : At t k m ↔
    (∃ v, m = .added v ∧ (slot t k).a = some v) ∨ (∃ v, m = .deleted v ∧ (slot t k).d = some v) ∨ (∃ d, m = .updated d ∧ (slot t k).u = some d) := by
  cases t; cases m <;> simp [At, slot]

/-- **C224.** An entry shows nothing but what it means: whatever else is shown was shown before. -/
theorem shows_only {kind : Kind} : ∀ {p q : Path} {o n : EV} {t t' : Tree} {m : Mark}, addDiff hash kind p t o n = some t' →
    Shows t' q m → Shows t q m ∨ Means hash kind o n p q m
  | [], _, _, _, _, _, _, h, _ => by simp [addDiff] at h
  | k :: ks, q, o, n, t, t', m, h, hs => by
    rw [addDiff_cons] at h
    obtain ⟨x, hx, rfl⟩ := Option.map_eq_some_iff.1 h
    have hq : ∃ l q', q = l :: q' := by cases hs <;> exact ⟨_, _, rfl⟩
    obtain ⟨l, q', rfl⟩ := hq
    by_cases hkl : k ≠ l
    · exact .inl (Shows_slot (slot_ne t hkl x) hs)
    have hkl : k = l := by simpa using hkl
    subst hkl
    cases hs with
    | here ha =>
      rw [At_set] at ha
      cases ks with
      | nil =>
        cases kind
        case update | updateReplace =>
          cases hd : Props.diff hash (fun _ => false) (getProperty k o) (getProperty k n) with
          | none => simp [slotOp, hd] at hx
          | some r =>
            simp only [slotOp, hd, Option.map_some, Option.some.injEq] at hx
            subst hx
            rcases ha with ha | ha | ⟨d, rfl, hu⟩
            · exact .inl (.here (At_old.2 (.inl ha)))
            · exact .inl (.here (At_old.2 (.inr (.inl ha))))
            · right
              cases r with
              | none => cases hu; exact .unchanged (by simp) hd
              | some d' => cases hu; exact .update (by simp) hd
        case add | addReplace =>
          simp only [slotOp, Option.some.injEq] at hx
          subst hx
          rcases ha with ⟨v, rfl, ha⟩ | ha | ha
          · cases ha; exact .inr (.add (by simp))
          · exact .inl (.here (At_old.2 (.inr (.inl ha))))
          · exact .inl (.here (At_old.2 (.inr (.inr ha))))
        case delete | deleteReplace =>
          simp only [slotOp, Option.some.injEq] at hx
          subst hx
          rcases ha with ha | ⟨v, rfl, ha⟩ | ha
          · exact .inl (.here (At_old.2 (.inl ha)))
          · cases ha; exact .inr (.delete (by simp))
          · exact .inl (.here (At_old.2 (.inr (.inr ha))))
      | cons l ls =>
        simp only [slotOp] at hx
        split at hx
        · rename_i hc
          simp only [Bool.and_eq_true, Bool.not_eq_true', isNull_iff] at hc
          cases hx
          rcases ha with ⟨v, rfl, ha⟩ | ha | ha
          · cases ha
            refine .inr (.appears (by simp) hc.1 (fun e => ?_))
            rw [e] at hc; simp [EV.isNull] at hc
          · exact .inl (.here (At_old.2 (.inr (.inl ha))))
          · exact .inl (.here (At_old.2 (.inr (.inr ha))))
        · split at hx
          · rename_i hc
            simp only [Bool.and_eq_true, Bool.not_eq_true', isNull_iff] at hc
            cases hx
            rcases ha with ha | ⟨v, rfl, ha⟩ | ha
            · exact .inl (.here (At_old.2 (.inl ha)))
            · cases ha
              refine .inr (.vanishes (by simp) (fun e => ?_) hc.2)
              rw [e] at hc; simp [EV.isNull] at hc
            · exact .inl (.here (At_old.2 (.inr (.inr ha))))
          · obtain ⟨c, -, rfl⟩ := Option.map_eq_some_iff.1 hx
            exact .inl (.here (At_old.2 ha))
    | deeper hb hc =>
      rw [below_slot, slot_same] at hb
      cases ks with
      | nil =>
        cases kind
        case update | updateReplace =>
          cases hd : Props.diff hash (fun _ => false) (getProperty k o) (getProperty k n) with
          | none => simp [slotOp, hd] at hx
          | some r =>
            simp only [slotOp, hd, Option.map_some, Option.some.injEq] at hx
            subst hx
            cases hb
        all_goals
          simp only [slotOp, Option.some.injEq] at hx
          subst hx
          exact .inl (.deeper (by rw [below_slot]; exact hb) hc)
      | cons l ls =>
        simp only [slotOp] at hx
        split at hx
        · cases hx; exact .inl (.deeper (by rw [below_slot]; exact hb) hc)
        · split at hx
          · cases hx; exact .inl (.deeper (by rw [below_slot]; exact hb) hc)
          · rename_i h1 h2
            obtain ⟨c', hc', rfl⟩ := Option.map_eq_some_iff.1 hx
            cases hb
            rcases shows_only hc' hc with hold | hnew
            · left
              cases hsub : (slot t k).s with
              | none => rw [hsub] at hold; exact absurd hold not_shows_empty
              | some c0 => rw [hsub] at hold; exact .deeper (by rw [below_slot]; exact hsub) hold
            · right
              refine .inside (by simp) ?_ hnew
              rw [← isNull_iff, ← isNull_iff]
              cases ho : (getProperty k o).isNull <;> cases hn : (getProperty k n).isNull <;> simp_all

/-- **C224.** What an entry shows stays shown whatever is added for a path apart from its own, of the same old and new properties. -/
theorem shows_kept {kind : Kind} : ∀ {p p' q : Path} {o n : EV} {t t' : Tree} {m : Mark} {kind' : Kind},
    addDiff hash kind p t o n = some t' → Means hash kind' o n p' q m → Apart p p' → Shows t q m → Shows t' q m
  | [], _, _, _, _, _, _, _, _, h, _, _, _ => by simp [addDiff] at h
  | k :: ks, p', q, o, n, t, t', m, kind', h, hm, hap, hs => by
    rw [addDiff_cons] at h
    obtain ⟨x, hx, rfl⟩ := Option.map_eq_some_iff.1 h
    have hq : ∃ l q' r', q = l :: q' ∧ p' = l :: r' := by cases hm <;> exact ⟨_, _, _, rfl, rfl⟩
    obtain ⟨l, q', r', rfl, rfl⟩ := hq
    by_cases hkl : k ≠ l
    · exact Shows_slot (slot_ne t hkl x).symm hs
    have hkl : k = l := by simpa using hkl
    subst hkl
    have hap' : Apart ks r' := by simpa [Apart, List.cons_prefix_cons] using hap
    have hks : ks ≠ [] := by rintro rfl; exact hap'.1 (by simp)
    have hr : r' ≠ [] := by rintro rfl; exact hap'.2 (by simp)
    obtain ⟨l, ls, rfl⟩ := List.exists_cons_of_ne_nil hks
    simp only [slotOp] at hx
    cases hm with
    | add _ => exact absurd rfl hr
    | delete _ => exact absurd rfl hr
    | update _ _ => exact absurd rfl hr
    | unchanged _ _ => exact absurd rfl hr
    | appears _ ho hn =>
      have h1 : (getProperty k n).isNull = false := by rw [← Bool.not_eq_true, isNull_iff]; exact hn
      simp only [(isNull_iff _).2 ho, h1, Bool.not_false, Bool.and_self, if_true, Option.some.injEq] at hx
      subst hx; cases t; exact .here (by simp [At, setSlot, set_same])
    | vanishes _ ho hn =>
      have h1 : (getProperty k o).isNull = false := by rw [← Bool.not_eq_true, isNull_iff]; exact ho
      simp only [(isNull_iff _).2 hn, h1, Bool.not_false, Bool.and_self, Bool.false_and, Bool.false_eq_true, if_false, if_true, Option.some.injEq] at hx
      subst hx; cases t; exact .here (by simp [At, setSlot, set_same])
    | inside _ hon hm' =>
      rw [← isNull_iff, ← isNull_iff, Bool.coe_iff_coe] at hon
      simp only [hon, Bool.and_not_self, Bool.not_and_self, Bool.false_eq_true, if_false] at hx
      obtain ⟨c', hc', rfl⟩ := Option.map_eq_some_iff.1 hx
      cases hs with
      | here _ => cases hm'
      | deeper hb hc =>
        refine .deeper (c := c') (by rw [below_slot, slot_same]) ?_
        rw [below_slot] at hb
        refine shows_kept hc' hm' hap' ?_
        rw [hb]; exact hc

/-- **C224.** Entries for paths apart from one another may be taken in either order. -/
theorem entries_commute {kind kind' : Kind} : ∀ {p q : Path} (o n : EV) (t : Tree), Apart p q →
    (addDiff hash kind p t o n).bind (fun t' => addDiff hash kind' q t' o n) =
      (addDiff hash kind' q t o n).bind (fun t' => addDiff hash kind p t' o n)
  | [], q, _, _, _, h => absurd (List.nil_prefix) h.1
  | k :: ks, [], _, _, _, h => absurd (List.nil_prefix) h.2
  | k :: ks, l :: ls, o, n, t, h => by
    simp only [addDiff_cons]
    by_cases hkl : k = l
    · subst hkl
      have hap' : Apart ks ls := by simpa [Apart, List.cons_prefix_cons] using h
      have hks : ks ≠ [] := by rintro rfl; exact hap'.1 (by simp)
      have hr : ls ≠ [] := by rintro rfl; exact hap'.2 (by simp)
      obtain ⟨k1, ks, rfl⟩ := List.exists_cons_of_ne_nil hks
      obtain ⟨l1, ls, rfl⟩ := List.exists_cons_of_ne_nil hr
      simp only [Option.bind_map, Function.comp_def, slot_same]
      by_cases h1 : ((getProperty k o).isNull && !(getProperty k n).isNull) = true
      · simp [slotOp, h1, setSlot_set]
      · by_cases h2 : (!(getProperty k o).isNull && (getProperty k n).isNull) = true
        · simp [slotOp, h1, h2, setSlot_set]
        · have ih := entries_commute (kind := kind) (kind' := kind') (getProperty k o) (getProperty k n) ((slot t k).s.getD .empty) hap'
          rw [Bool.not_eq_true] at h1 h2
          simp only [slotOp, h1, h2, Bool.false_eq_true, if_false, Option.bind_map, Option.map_map, Function.comp_def, Option.getD_some, setSlot_set]
          have := congrArg (Option.map (fun c : Tree => setSlot t k { slot t k with s := some c })) ih
          simpa only [Option.map_bind, Function.comp_def] using this
    · have hlk : l ≠ k := fun e => hkl e.symm
      simp only [Option.bind_map, Function.comp_def, slot_ne t hkl, slot_ne t hlk]
      cases slotOp hash kind ks (getProperty k o) (getProperty k n) (slot t k) <;>
        cases slotOp hash kind' ls (getProperty l o) (getProperty l n) (slot t l) <;> simp [setSlot_comm t hkl]

end Pulumi.Detailed
