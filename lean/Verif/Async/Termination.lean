import Verif.Async.Lemmas
import Mathlib.Logic.Hydra
/-! Every execution of finitely many root tasks ends: the multiset of remaining coroutine bodies decreases. -/
namespace Pulumi.Async
open Relation

/-- `q` is what remains of `p` after one step, or a task that step starts. -/
inductive Sub : Prog → Prog → Prop
  | await {f k r} : Sub (k r) (.await f k)
  | gather {fs k r} : Sub (k r) (.gather fs k)
  | spawnL {p k} : Sub p (.spawn p k)
  | spawnR {p k t} : Sub (k t) (.spawn p k)
  | set {i r k b} : Sub (k b) (.set i r k)
  | call {v k} : Sub k (.call v k)

theorem sub_wf : WellFounded Sub := by
  constructor
  intro p
  induction p with
  | ret v => constructor; intro q h; cases h
  | raise e => constructor; intro q h; cases h
  | await f k ih => constructor; intro q h; cases h; exact ih _
  | gather fs k ih => constructor; intro q h; cases h; exact ih _
  | spawn p k ih1 ih2 => constructor; intro q h; cases h; exact ih1; exact ih2 _
  | set i r k ih => constructor; intro q h; cases h; exact ih _
  | call v k ih => constructor; intro q h; cases h; exact ih

def progOf (c : Config) (t : TaskId) : Option Prog := (c.tasks t).bind (·.prog)

def pend (c : Config) (L : List TaskId) : Multiset Prog := ↑(L.filterMap (progOf c))

structure Enum (c : Config) (L : List TaskId) : Prop where
  nodup : L.Nodup
  mem : ∀ t, t ∈ L ↔ ∃ T, c.tasks t = some T

theorem filterMap_replace {g g' : TaskId → Option Prog} {L : List TaskId} {t : TaskId} (hn : L.Nodup) (ht : t ∈ L)
    (hg : ∀ u, u ≠ t → u ∈ L → g' u = g u) :
    ∃ M : Multiset Prog, (↑(L.filterMap g) : Multiset Prog) = M + ↑((g t).toList) ∧
      (↑(L.filterMap g') : Multiset Prog) = M + ↑((g' t).toList) := by
  have hperm := List.perm_cons_erase ht
  refine ⟨↑((L.erase t).filterMap g), ?_, ?_⟩
  · have := hperm.filterMap g
    rw [Multiset.coe_eq_coe.2 this]
    cases h : g t with
    | none => simp [h]
    | some p => simp [h]; rw [← Multiset.cons_coe, ← Multiset.singleton_add, Multiset.add_comm]
  · have := hperm.filterMap g'
    rw [Multiset.coe_eq_coe.2 this]
    have he : (L.erase t).filterMap g' = (L.erase t).filterMap g := by
      apply List.filterMap_congr
      intro u hu
      have hu' := (List.Nodup.mem_erase_iff hn).1 hu
      exact hg u hu'.1 hu'.2
    cases h : g' t with
    | none => simp [h, he]
    | some p => simp [h, he]; rw [← Multiset.cons_coe, ← Multiset.singleton_add, Multiset.add_comm]

theorem enum_step {c c' : Config} (hc : Inv c) {L} (hL : Enum c L) {t} (h : stepTask c t = some c') :
    ∃ L', Enum c' L' ∧ CutExpand Sub (pend c' L') (pend c L) := by
  obtain ⟨T, hT, hs⟩ := stepTask_cases h
  have htL : t ∈ L := (hL.mem t).2 ⟨T, hT⟩
  -- steps that only replace the program of `t`
  have simple : ∀ (p : Prog) (T' : Task) (futs : Store), T.prog = some p → (∀ q, T'.prog = some q → Sub q p) →
      ∃ L', Enum { (c.setTask t T') with futs := futs } L' ∧
        CutExpand Sub (pend { (c.setTask t T') with futs := futs } L') (pend c L) := by
    intro p T' futs hp hq
    refine ⟨L, ⟨hL.nodup, ?_⟩, ?_⟩
    · intro u
      rw [hL.mem u]
      by_cases hu : u = t
      · subst hu
        constructor
        · intro _; exact ⟨_, Config.setTask_same _ _ _⟩
        · intro _; exact ⟨T, hT⟩
      · show _ ↔ ∃ U, (c.setTask t T').tasks u = some U
        rw [Config.setTask_other _ _ hu]
    · obtain ⟨M, h1, h2⟩ := filterMap_replace (g := progOf c) (g' := progOf { (c.setTask t T') with futs := futs })
        hL.nodup htL (by
          intro u hu _
          show ((c.setTask t T').tasks u).bind _ = _
          rw [Config.setTask_other _ _ hu]; rfl)
      have e1 : progOf c t = some p := by simp [progOf, hT, hp]
      have e2 : progOf { (c.setTask t T') with futs := futs } t = T'.prog := by
        show ((c.setTask t T').tasks t).bind _ = _
        rw [Config.setTask_same]; rfl
      rw [e1] at h1; rw [e2] at h2
      refine ⟨↑(T'.prog.toList), p, ?_, ?_⟩
      · intro a ha; exact hq a (by simpa using ha)
      · unfold pend
        rw [h1, h2]
        show M + _ + {p} = M + {p} + _
        ac_rfl
  cases hs with
  | ret v hp => exact simple _ _ _ hp (by simp)
  | raise e hp => exact simple _ _ _ hp (by simp)
  | await f k r hp hr => exact simple _ { T with prog := some (k r) } c.futs hp (by rintro q ⟨⟩; exact .await)
  | gather fs k r hp hr => exact simple _ { T with prog := some (k r) } c.futs hp (by rintro q ⟨⟩; exact .gather)
  | setNew i r k hp hs => exact simple _ { T with prog := some (k true) } _ hp (by rintro q ⟨⟩; exact .set)
  | setOld i r k r' hp hs => exact simple _ { T with prog := some (k false) } c.futs hp (by rintro q ⟨⟩; exact .set)
  | call v k hp => exact simple _ { T with prog := some k, calls := T.calls ++ [v] } c.futs hp (by rintro q ⟨⟩; exact .call)
  | spawn p k hp =>
    have hnc := inv_no_child hc hT
    have hne := child_ne t T.children
    have hcL : TaskId.child t T.children ∉ L := by
      intro h; obtain ⟨U, hU⟩ := (hL.mem _).1 h; rw [hnc] at hU; simp at hU
    refine ⟨.child t T.children :: L, ⟨List.nodup_cons.2 ⟨hcL, hL.nodup⟩, ?_⟩, ?_⟩
    · intro u
      by_cases hu : u = t
      · subst hu
        constructor
        · intro _; exact ⟨_, Config.setTask_same _ _ _⟩
        · intro _; exact List.mem_cons_of_mem _ htL
      · rw [Config.setTask_other _ _ hu]
        by_cases hu' : u = .child t T.children
        · subst hu'
          constructor
          · intro _; exact ⟨_, Config.setTask_same _ _ _⟩
          · intro _; exact List.mem_cons_self
        · rw [Config.setTask_other _ _ hu', List.mem_cons, hL.mem u]
          simp [hu']
    · generalize hc'' : ((c.setTask (.child t T.children) (Task.fresh p)).setTask t
        { T with prog := some (k (.child t T.children)), children := T.children + 1,
                 spawned := T.spawned ++ [(.child t T.children, p)] }) = c''
      obtain ⟨M, h1, h2⟩ := filterMap_replace (g := progOf c) (g' := progOf c'')
        hL.nodup htL (by
          intro u hu huL
          rw [← hc'']
          unfold progOf
          rw [Config.setTask_other _ _ hu, Config.setTask_other _ _ (by rintro rfl; exact hcL huL)])
      have e1 : progOf c t = some (.spawn p k) := by simp [progOf, hT, hp]
      have e2 : progOf c'' t = some (k (.child t T.children)) := by
        rw [← hc'']; unfold progOf; rw [Config.setTask_same]; rfl
      have e3 : progOf c'' (.child t T.children) = some p := by
        rw [← hc'']; unfold progOf; rw [Config.setTask_other _ _ hne, Config.setTask_same]; rfl
      rw [e1] at h1; rw [e2] at h2
      refine ⟨{p, k (.child t T.children)}, .spawn p k, ?_, ?_⟩
      · intro a ha
        simp at ha
        rcases ha with rfl | rfl
        · exact .spawnL
        · exact .spawnR
      · unfold pend
        rw [List.filterMap_cons, e3, h1]
        show (↑(p :: L.filterMap _) : Multiset Prog) + _ = _
        rw [← Multiset.cons_coe, h2, ← Multiset.singleton_add]
        show {p} + (M + {_}) + {_} = M + {_} + ({p} + {_})
        ac_rfl

/-- From a state with finitely many tasks, some execution ends. -/
theorem exists_quiescent {c : Config} (hc : Inv c) {L} (hL : Enum c L) : ∃ n d, Steps n c d ∧ Quiescent d := by
  have hwf := (sub_wf.cutExpand)
  generalize hM : pend c L = M
  induction M using hwf.induction generalizing c L with
  | _ M ih =>
    by_cases hq : Quiescent c
    · exact ⟨0, c, .refl _, hq⟩
    · have : ∃ t, stepTask c t ≠ none := by
        by_contra hcon
        exact hq fun t => by_contra fun h => hcon ⟨t, h⟩
      obtain ⟨t, ht⟩ := this
      obtain ⟨c', hc'⟩ := Option.ne_none_iff_exists'.1 ht
      obtain ⟨L', hL', hlt⟩ := enum_step hc hL hc'
      subst hM
      obtain ⟨n, d, hs, hd⟩ := ih _ hlt (inv_step hc hc') hL' rfl
      exact ⟨n + 1, d, .cons ⟨t, hc'⟩ hs, hd⟩

theorem enum_start {roots : Nat → Option Prog} {N : Nat} (h : ∀ i, N ≤ i → roots i = none) :
    ∃ L, Enum (start roots) L := by
  refine ⟨((List.range N).filter (fun i => (roots i).isSome)).map TaskId.root, ?_, ?_⟩
  · refine List.Nodup.map (by intro a b h; cases h; rfl) (List.nodup_range.filter _)
  · intro t
    simp only [List.mem_map, List.mem_filter, List.mem_range]
    constructor
    · rintro ⟨i, ⟨_, hi⟩, rfl⟩
      obtain ⟨p, hp⟩ := Option.isSome_iff_exists.1 hi
      exact ⟨Task.fresh p, by simp [start, hp]⟩
    · rintro ⟨T, hT⟩
      cases t with
      | child t n => simp [start] at hT
      | root i =>
        simp only [start, Option.map_eq_some_iff] at hT
        obtain ⟨p, hp, _⟩ := hT
        refine ⟨i, ⟨?_, by simp [hp]⟩, rfl⟩
        by_contra hge
        rw [h i (by omega)] at hp; simp at hp

end Pulumi.Async
