import Verif.Proofs.Twin
/-
  Interleavings of the same per-page programs.
-/

namespace Monoasm
open JitMemory Spec

theorem interleaved_perm {T T' : List Stmt} (h : Interleaved T T') : T.Perm T' := by
  induction T generalizing T' with
  | nil =>
    cases T' with
    | nil => exact .nil
    | cons st T' =>
      have := h st.page
      simp at this
  | cons st T ih =>
    have h1 := h st.page
    rw [List.filter_cons_of_pos (by simp)] at h1
    obtain ⟨a, b, e, ha, _, hb⟩ := List.filter_eq_cons_iff.1 h1.symm
    subst e
    refine (List.Perm.cons st (ih (T' := a ++ b) ?_)).trans List.perm_middle.symm
    intro p
    have hp := h p
    by_cases e : st.page = p
    · subst e
      have : a.filter (fun st' => st'.page = st.page) = [] := List.filter_eq_nil_iff.2 ha
      rw [List.filter_append, this, List.nil_append]
      exact hb.symm
    · simpa [List.filter_append, e] using hp

theorem interleaved_symm {T T' : List Stmt} (h : Interleaved T T') : Interleaved T' T := fun p => (h p).symm

theorem assigned_perm {T T' : List Stmt} (h : T.Perm T') : (assigned T).Perm (assigned T') := h.flatMap_right _

theorem orderly_perm {n T T'} (o : Orderly n T) (h : T.Perm T') : Orderly n T' where
  onCurrent st hs := o.onCurrent st (h.mem_iff.2 hs)
  once := (assigned_perm h).nodup_iff.1 o.once
  fresh x hx := o.fresh x ((assigned_perm h).mem_iff.2 hx)
  binder a ha b hb := o.binder a (h.mem_iff.2 ha) b (h.mem_iff.2 hb)

section
variable {base : Nat} {s0 s1 s2 : JitMemory} {v1 v2 : List Nat} {L1 L2 : Page → PageLog}

theorem noLists {f} {pg : MemPage} (h : pg.constants = [] ∧ pg.data = []) : withLists pg f [] [] = pg := by
  cases pg
  simp only at h
  simp [withLists, h]

theorem twin_of_rep (hv : HInv base s0) (r1 : Rep base s0 v1 L1 s1) (r2 : Rep base s0 v2 L2 s2)
    (hL : ∀ p, p < 2 → L1 p = L2 p) (hn : v1.Nodup) (hf : ∀ x ∈ v1, s0.labels.length ≤ x) (hp : v1.Perm v2) :
    Twin (InScope s0.labels.length v1) (valueOf s0.labels.length v1) (valueOf s0.labels.length v2) s1 s2 := by
  have hsc : ∀ x, InScope s0.labels.length v1 x → InScope s0.labels.length v2 x := fun x h => h.imp id hp.mem_iff.1
  have hw : ∀ x, whereIs s0 L1 x = whereIs s0 L2 x := fun x => by
    simp only [whereIs, hL 0 (by decide), hL 1 (by decide)]
  refine ⟨?_, ?_, ?_, ?_, ?_, ?_, ?_, ?_, ?_, ?_, ?_⟩
  · rw [r1.len, r2.len, hp.length_eq]
  · intro x hx; rw [r1.len]; exact valueOf_lt hx
  · intro x hx; rw [r2.len]; exact valueOf_lt (hsc x hx)
  · intro x y hx hy; exact valueOf_inj hx hy
  · intro x y hx hy; exact valueOf_inj (hsc x hx) (hsc y hy)
  · intro l hl; rw [r1.len] at hl; exact valueOf_surj hn hf hl
  · intro l hl; rw [r2.len] at hl
    obtain ⟨x, hx, e⟩ := valueOf_surj (hp.nodup_iff.1 hn) (fun z hz => hf z (hp.mem_iff.2 hz)) hl
    exact ⟨x, hx.imp id hp.mem_iff.2, e⟩
  · intro p
    by_cases h2 : p < 2
    · refine ⟨{ s0.pages p with counter := (L1 p).counter }, (L1 p).consts, (L1 p).data, ?_, ?_, ?_, ?_⟩
      · intro d hd; exact r1.inScope p h2 d (List.mem_append_left _ hd)
      · intro d hd; exact r1.inScope p h2 d (List.mem_append_right _ hd)
      · rw [r1.pages p h2]; rfl
      · rw [r2.pages p h2, hL p h2]; rfl
    · have h2 := Nat.not_lt.1 h2
      refine ⟨s0.pages p, [], [], .nil, .nil, ?_, ?_⟩
      · rw [r1.others p h2]
        exact (noLists (hv.lists p h2)).symm
      · rw [r2.others p h2]
        exact (noLists (hv.lists p h2)).symm
  · funext a
    by_cases h : ∃ p, p < 2 ∧ inPage base p a
    · obtain ⟨p, h2, h⟩ := h
      simp only [inPage] at h
      have e : a = addrOf base p (a - (base + PAGE_SIZE * p)) := by simp only [addrOf]; omega
      rw [e, r1.mem p h2 _ (by omega), r2.mem p h2 _ (by omega), hL p h2]
    · have h : ∀ p, p < 2 → ¬ inPage base p a := fun p h2 hi => h ⟨p, h2, hi⟩
      rw [r1.rest a h, r2.rest a h]
  · intro x hx; rw [r1.loc x hx, r2.loc x (hsc x hx), hw]
  · intro x hx t
    rw [(r1.tgt x hx).mem_iff, (r2.tgt x (hsc x hx)).mem_iff, hL 0 (by decide), hL 1 (by decide)]

/-- Calls of a program keep the invariant of histories. -/
theorem hinv_runOps {h : List Op} (hv : HInv base s0) (hr : NoRaw h) {s} (hs : runOps h s0 = .ok () s) : HInv base s := by
  have := hinv_caught hv hr (h := h)
  rwa [runCaught_of_ok hs] at this

theorem rename_allowed {op : Op} (h : op.onCurrent ∧ ∀ l off, op ≠ .save_reloc l off) (f) :
    (op.rename f) ≠ .finalize ∧ ∀ l off, op.rename f ≠ .save_reloc l off := by
  cases op with
  | save_reloc l off => exact absurd rfl (h.2 l off)
  | select_page | page | bind_label_with_page | finalize | apply_jmp_patch | apply_jmp_patch_address => exact absurd h.1 id
  | _ => exact ⟨by simp [Op.rename], by simp [Op.rename]⟩

theorem calls_allowed {n : Nat} {T : List Stmt} (h : ∀ st ∈ T, st.op.onCurrent ∧ ∀ l off, st.op ≠ .save_reloc l off) (vars) :
    NoRaw (calls n vars T) ∧ .finalize ∉ calls n vars T := by
  induction T generalizing vars with
  | nil => exact ⟨fun _ hm => absurd hm (by simp [calls]), by simp [calls]⟩
  | cons st T ih =>
    have h1 := rename_allowed (h st List.mem_cons_self) (valueOf n vars)
    have h2 := ih (fun st' h' => h st' (List.mem_cons_of_mem _ h')) (vars ++ st.assigned)
    refine ⟨?_, ?_⟩
    · intro op hm l off e
      simp only [calls, List.mem_cons] at hm
      rcases hm with rfl | rfl | hm
      · cases e
      · exact h1.2 l off e
      · exact h2.1 op hm l off e
    · simp only [calls, List.mem_cons, reduceCtorEq, false_or, not_or]
      exact ⟨fun e => h1.1 e.symm, h2.2⟩

theorem scoped_abs {n T} (h : Scoped n T) :
    ∀ a st b x, T = a ++ st :: b → st.op = .new (.abs_address x) → InScope n (assigned a) x :=
  fun a st b x e hx => h a st b e x (by rw [hx]; simp [Op.labels])

/-- Both programs run, and the states they lead to differ in the numbers of labels only. -/
theorem interleave_twin (hv : HInv base s0) (hc : Closed s0) {T1 T2 : List Stmt} (o : Orderly s0.labels.length T1)
    (c1 : Scoped s0.labels.length T1) (c2 : Scoped s0.labels.length T2) (hI : Interleaved T1 T2)
    (h1 : runOps (calls s0.labels.length [] T1) s0 = .ok () s1) :
    ∃ s2, runOps (calls s0.labels.length [] T2) s0 = .ok () s2 ∧ HInv base s1 ∧ HInv base s2 ∧
      Twin (InScope s0.labels.length (assigned T1)) (valueOf s0.labels.length (assigned T1))
        (valueOf s0.labels.length (assigned T2)) s1 s2 := by
  have hp := interleaved_perm hI
  have o2 := orderly_perm o hp
  have r0 := rep_start hv hc
  have p1 := progOk_start (s0 := s0) (base := base) o (scoped_abs c1)
  have p2 := progOk_start (s0 := s0) (base := base) o2 (scoped_abs c2)
  obtain ⟨L1, r1, q1, e1⟩ := r0.prog hv.inv p1 h1
  obtain ⟨s2, h2⟩ := r0.prog_runs hv.inv p2 (progScoped_of c2) (fun st hs => q1 st (hp.mem_iff.2 hs)) (by
    intro p hp'
    rw [← hI p, e1 p hp']; simp)
  obtain ⟨L2, r2, q2, e2⟩ := r0.prog hv.inv p2 h2
  have a1 := calls_allowed (n := s0.labels.length) o.onCurrent []
  have a2 := calls_allowed (n := s0.labels.length) o2.onCurrent []
  refine ⟨s2, h2, hinv_runOps hv a1.1 h1, hinv_runOps hv a2.1 h2,
    twin_of_rep hv r1 r2 ?_ o.once o.fresh (assigned_perm hp)⟩
  intro p hp'
  have := (e1 p hp').symm.trans ((congrArg (fun T => PageLog.prog T _) (hI p)).trans (e2 p hp'))
  exact Option.some.inj this

theorem finalize_lists {s s'} (hv : HInv base s) (h : finalize s = .ok () s') (p) :
    (s'.pages p).constants = [] ∧ (s'.pages p).data = [] := by
  have f := finalize_hinv hv h
  have := f.lists p
  simp only [lists] at this
  by_cases e : p = 0 ∨ p = 1
  · rw [if_pos e, Prod.mk.injEq] at this; exact this
  · rw [if_neg e, Prod.mk.injEq] at this
    have h2 : 2 ≤ p := by
      have key : ∀ n : Nat, ¬ (n = 0 ∨ n = 1) → 2 ≤ n := by omega
      exact key p e
    rw [this.1, this.2]; exact hv.lists p h2

theorem Twin.pages_eq {D f1 f2} (h : Twin D f1 f2 s1 s2) (k1 : ∀ p, (s1.pages p).constants = [] ∧ (s1.pages p).data = []) :
    s1.pages = s2.pages := by
  funext p
  obtain ⟨pg, X, Y, hX, hY, e1, e2⟩ := h.pages p
  have := k1 p
  rw [e1] at this
  simp only [withLists, List.map_eq_nil_iff] at this
  obtain ⟨rfl, rfl⟩ := this
  rw [e1, e2]; rfl

end

theorem runOps_append {a b : List Op} {s s'} : runOps (a ++ b) s = .ok () s' ↔ ∃ t, runOps a s = .ok () t ∧ runOps b t = .ok () s' := by
  induction a generalizing s with
  | nil => exact ⟨fun h => ⟨s, rfl, h⟩, fun ⟨t, h1, h2⟩ => by cases h1; exact h2⟩
  | cons op a ih =>
    constructor
    · intro h
      obtain ⟨_, t, h1, h2⟩ := bind_ok h
      obtain ⟨u, h3, h4⟩ := ih.1 h2
      exact ⟨u, (ok_bind h1).trans h3, h4⟩
    · rintro ⟨u, h3, h4⟩
      obtain ⟨_, t, h1, h2⟩ := bind_ok h3
      exact (ok_bind h1).trans (ih.2 ⟨u, h2, h4⟩)

theorem runOps_finalize {s s'} : runOps [.finalize] s = .ok () s' ↔ finalize s = .ok () s' := by
  constructor
  · intro h
    obtain ⟨_, t, h1, h2⟩ := bind_ok h
    cases h2; exact h1
  · intro h; exact (ok_bind (m := finalize) h).trans rfl

/-- A test for `Scoped`. -/
def scopedTest (n : Nat) : List Nat → List Stmt → Bool
  | _, [] => true
  | vars, st :: T => st.op.labels.all (fun x : Nat => decide (x < n) || vars.contains x) && scopedTest n (vars ++ st.assigned) T

theorem scoped_test {n T} (h : scopedTest n [] T = true) : Scoped n T := by
  suffices ∀ vars, scopedTest n vars T = true → ∀ a st b, T = a ++ st :: b → ∀ x ∈ st.op.labels, InScope n (vars ++ assigned a) x by
    simpa [Scoped] using this [] h
  clear h
  induction T with
  | nil => intro vars _ a st b e; simp at e
  | cons st T ih =>
    intro vars h a st' b e x hx
    simp only [scopedTest, Bool.and_eq_true, List.all_eq_true] at h
    cases a with
    | nil =>
      simp only [List.nil_append, List.cons.injEq] at e
      obtain ⟨rfl, rfl⟩ := e
      have := h.1 x hx
      simp only [Bool.or_eq_true, decide_eq_true_eq, List.contains_iff_mem] at this
      simpa [assigned, InScope] using this
    | cons st2 a =>
      simp only [List.cons_append, List.cons.injEq] at e
      obtain ⟨rfl, e⟩ := e
      have := ih _ h.2 a st' b e x hx
      rw [assigned_cons, ← List.append_assoc]; exact this

end Monoasm
