import Verif.Spec.Progress
import Verif.Proofs.Simple
import Verif.Props.C49
/-
  Helper lemmas for C61.
-/

namespace Monoasm
open Spec X86 JitMemory

variable {base : Nat} {mem : Nat → Monoasm.Byte} {pre : List NewCall} {is : List (Inst Val Nat)}

theorem here_eq {s : JitMemory} (h : Inv base s) : here s = base + PAGE_SIZE * s.page + cursor s s.page := by
  rw [here, h.contents]; rfl

/-- The selected page does not change, and the cursor never goes back. -/
theorem simple_next (hw : WellFormed pre is) (base mem) (n : Nat) :
    (reach base mem ((simple pre is).take (n + 1))).page = (reach base mem ((simple pre is).take n)).page
    ∧ Spec.place base mem (simple pre is) n ≤ Spec.place base mem (simple pre is) (n + 1) := by
  have hi := inv_reach base mem ((simple pre is).take n)
  have hi' := inv_reach base mem ((simple pre is).take (n + 1))
  rw [Spec.place, Spec.place, here_eq hi, here_eq hi']
  suffices (reach base mem ((simple pre is).take (n + 1))).page = (reach base mem ((simple pre is).take n)).page
      ∧ cursor (reach base mem ((simple pre is).take n)) (reach base mem ((simple pre is).take n)).page
        ≤ cursor (reach base mem ((simple pre is).take (n + 1))) (reach base mem ((simple pre is).take n)).page by
    refine ⟨this.1, ?_⟩
    rw [this.1]
    have := this.2
    omega
  rcases Nat.lt_or_ge n pre.length with hn | hn
  · obtain ⟨c, hc⟩ : ∃ c, (simple pre is)[n]? = some (.new c) :=
      ⟨pre[n], by rw [simple, List.getElem?_append_left (by simpa using hn)]; simp [hn]⟩
    rw [take_at hc]
    simp only [reach, runCaught_append]
    obtain ⟨s', h1, h2⟩ := created [c] (runCaught ((simple pre is).take n) (JitMemory.new base mem))
    rw [runCaught_of_ok (show runOps [.new c] _ = .ok () s' from h1)]
    refine ⟨h2.page, ?_⟩
    rw [cursor, cursor, h2.counter]
    exact Nat.le_refl _
  · obtain ⟨j, rfl⟩ : ∃ j, n = pre.length + j := ⟨n - pre.length, by omega⟩
    obtain ⟨s1, s2, h⟩ := laid hw base mem
    rcases Nat.lt_trichotomy j is.length with hj | hj | hj
    · have hj' := List.getElem?_eq_getElem hj
      obtain ⟨t, -, e, t', ht⟩ := h.at hj'
      have e' := runs_reach (base := base) (mem := mem) (simple_label_at (pre := pre) hj') (by rw [e]; exact ht)
      obtain ⟨its, -, hr⟩ := runs_items ht
      have hl := runs_len ht
      rw [e', e]
      refine ⟨hr.page, ?_⟩
      simp only [here, hr.page, hr.contents] at hl
      simp only [cursor]
      omega
    · subst hj
      obtain ⟨s3, h3⟩ := h.fin hw
      have e : reach base mem ((simple pre is).take (pre.length + is.length)) = s2 := by
        rw [simple_take (Nat.le_refl _), List.take_length]
        exact runCaught_of_ok h.run
      have e' : reach base mem ((simple pre is).take (pre.length + is.length + 1)) = s3 := by
        rw [List.take_of_length_le (by rw [simple_length]; exact Nat.le_refl _)]
        exact runCaught_of_ok (runOps_append.2 ⟨s1, h.news, runOps_append.2 ⟨s2, runOps_insts h.code, runOps_finalize.2 h3⟩⟩)
      rw [e] at hi
      have f := finalize_run hi h3
      rw [e, e']
      exact ⟨f.selected, f.cursor _⟩
    · have hl := simple_length pre is
      rw [List.take_of_length_le (by omega), List.take_of_length_le (by omega)]
      exact ⟨rfl, Nat.le_refl _⟩

theorem place_mono (hw : WellFormed pre is) (base mem) {n m : Nat} (h : n ≤ m) :
    Spec.place base mem (simple pre is) n ≤ Spec.place base mem (simple pre is) m := by
  induction h with
  | refl => exact Nat.le_refl _
  | step _ ih => exact Nat.le_trans ih (simple_next hw base mem _).2

theorem place_page0 (hw : WellFormed pre is) (base mem) (n : Nat) : (reach base mem ((simple pre is).take n)).page = 0 := by
  induction n with
  | zero => rfl
  | succ n ih => rw [(simple_next hw base mem n).1, ih]

theorem place_bound (hw : WellFormed pre is) (base mem) (n : Nat) : Spec.place base mem (simple pre is) n ≤ base + PAGE_SIZE := by
  have hi := inv_reach base mem ((simple pre is).take n)
  rw [Spec.place, here_eq hi, place_page0 hw]
  have : cursor (reach base mem ((simple pre is).take n)) 0 ≤ PAGE_SIZE := hi.counter 0
  omega

theorem ofNat_inj {a b : Nat} (ha : a < 2 ^ 64) (hb : b < 2 ^ 64) (h : BitVec.ofNat 64 a = BitVec.ofNat 64 b) : a = b := by
  have := congrArg BitVec.toNat h
  rwa [BitVec.toNat_ofNat, BitVec.toNat_ofNat, Nat.mod_eq_of_lt ha, Nat.mod_eq_of_lt hb] at this

theorem place_lt (hw : WellFormed pre is) (hA : Alloc base) (mem) (n : Nat) : Spec.place base mem (simple pre is) n < 2 ^ 64 := by
  have := place_bound hw base mem n
  have := hA.user
  rw [PAGE_SIZE_eq] at *
  omega

theorem placeW_inj (hw : WellFormed pre is) (hA : Alloc base) {n m : Nat} (h : placeW base mem (simple pre is) n = placeW base mem (simple pre is) m) :
    Spec.place base mem (simple pre is) n = Spec.place base mem (simple pre is) m :=
  ofNat_inj (place_lt hw hA mem n) (place_lt hw hA mem m) h

/-- Statements that are not labels or data have code. -/
theorem place_strict (hw : WellFormed pre is) (hA : Alloc base) {j : Nat} {i} (hj : is[j]? = some i) (hl : placedLabel i = none) (hd : isData i = false) :
    Valid i ∧ Spec.place base mem (simple pre is) (pre.length + j) < Spec.place base mem (simple pre is) (pre.length + j + 1) := by
  have hmem := List.mem_of_getElem? hj
  obtain ⟨t, ht⟩ := simple_runs hw base mem
  have hn := simple_label_at (pre := pre) hj
  have hv : Valid i := by
    rcases hw.meaningful i hmem with h | ⟨l, rfl⟩ | ⟨v, rfl⟩ | ⟨v, rfl⟩
    · exact h
    · cases hl
    · cases hd
    · cases hd
  refine ⟨hv, ?_⟩
  obtain ⟨I, hI⟩ := encoded_some hv (dist (labelAddr (reach base mem (simple pre is))) (Spec.place base mem (simple pre is) (pre.length + j + 1)))
  have h := decode_at hA (noRaw_simple pre is) (keepsLabels_runOps ht) hn (simple_ready hw hA mem hn) hI []
  rcases Nat.lt_or_ge (Spec.place base mem (simple pre is) (pre.length + j)) (Spec.place base mem (simple pre is) (pre.length + j + 1)) with hlt | hge
  · exact hlt
  · rw [Nat.sub_eq_zero_of_le hge] at h
    cases h

/-- Positions at the same place are reached without executing an instruction. -/
theorem skips (hw : WellFormed pre is) {M : Reading} {E : Effect} {n m : Nat} {d : Data} (h : n ≤ m) (hm : m ≤ (simple pre is).length)
    (he : Spec.place base mem (simple pre is) n = Spec.place base mem (simple pre is) m) : SourceRun base mem (simple pre is) M E 0 n d m d := by
  obtain ⟨k, rfl⟩ : ∃ k, m = n + k := ⟨m - n, by omega⟩
  induction k generalizing n with
  | zero => exact .done
  | succ k ih =>
    have h1 := place_mono hw base mem (show n ≤ n + 1 by omega)
    have h2 := place_mono hw base mem (show n + 1 ≤ n + (k + 1) by omega)
    have e : Spec.place base mem (simple pre is) (n + 1) = Spec.place base mem (simple pre is) n := by omega
    have := ih (n := n + 1) (by omega) (by omega) (by rw [e, he]; congr 1; omega)
    rw [show n + 1 + k = n + (k + 1) by omega] at this
    exact .step (j := 0) (k := 0) (.skip (by omega) e) (by simp) (by simp) this

theorem sourceRun_append {H : List Op} {M : Reading} {E : Effect} {j k n m p : Nat} {d1 d2 d3 : Data} (h1 : SourceRun base mem H M E j n d1 m d2)
    (h2 : SourceRun base mem H M E k m d2 p d3) : SourceRun base mem H M E (j + k) n d1 p d3 := by
  induction h1 with
  | done => rwa [Nat.zero_add]
  | step a b c _ ih => rw [Nat.add_assoc]; exact .step a b c (ih h2)

/-- The statement at which the processor is, is reached by skipping labels. -/
theorem skip_to (hw : WellFormed pre is) (hA : Alloc base) {M : Reading} {E : Effect} {n j : Nat} {i} {d : Data} (hj : is[j]? = some i)
    (hl : placedLabel i = none) (hd : isData i = false)
    (he : placeW base mem (simple pre is) n = placeW base mem (simple pre is) (pre.length + j)) :
    SourceRun base mem (simple pre is) M E 0 n d (pre.length + j) d := by
  have e := placeW_inj hw hA he
  obtain ⟨hlt, -⟩ := List.getElem?_eq_some_iff.1 hj
  refine skips hw ?_ (by rw [simple_length]; omega) e
  rcases Nat.lt_or_ge (pre.length + j) n with h | h
  · have h1 := (place_strict (mem := mem) hw hA hj hl hd).2
    have h2 := place_mono hw base mem (show pre.length + j + 1 ≤ n from h)
    omega
  · exact h

/-- Constants and data are behind the code. -/
theorem object_behind (hw : WellFormed pre is) (hA : Alloc base) (mem) {l : Nat} {c} (hc : pre[l]? = some c) (hne : c ≠ .label) :
    ∃ a, HasAddress (reach base mem (simple pre is)) l a ∧ Spec.place base mem (simple pre is) (pre.length + is.length) ≤ a ∧ a < 2 ^ 64 := by
  obtain ⟨s1, s2, h⟩ := laid hw base mem
  obtain ⟨s3, h3⟩ := h.fin hw
  have e3 : reach base mem (simple pre is) = s3 := runCaught_of_ok
    (runOps_append.2 ⟨s1, h.news, runOps_append.2 ⟨s2, runOps_insts h.code, runOps_finalize.2 h3⟩⟩)
  have e2 : reach base mem ((simple pre is).take (pre.length + is.length)) = s2 := by
    rw [simple_take (Nat.le_refl _), List.take_length]
    exact runCaught_of_ok h.run
  obtain ⟨d, hd⟩ := objects_from (k := 0) hc hne
  rw [Nat.zero_add] at hd
  have hr2 : NoRaw (pre.map .new ++ is.map .inst) := fun op hop => noRaw_simple pre is op (by
    simp only [simple, List.mem_append] at hop ⊢
    rcases hop with h | h
    · exact .inl h
    · exact .inr (.inl h))
  have hv : HInv base s2 := by
    have := hinv_reach (base := base) (mem := mem) hr2
    rwa [reach, runCaught_of_ok h.run] at this
  have hF := finalize_ok hv.inv hv.slots hv.nodup h3
  have ho : (0, d, l) ∈ objects s2 ∨ (DATA_PAGE, d, l) ∈ objects s2 := by
    rcases hd with hd | hd
    · exact .inl (by simp [objects, h.consts, hd])
    · exact .inr (by simp [objects, h.data, hd])
  have hp := place_page0 hw base mem (pre.length + is.length)
  rw [e2] at hp
  have hb := place_bound hw base mem (pre.length + is.length)
  have hpl : Spec.place base mem (simple pre is) (pre.length + is.length) = base + cursor s2 0 := by
    rw [Spec.place, e2, here_eq hv.inv, hp]; omega
  have hu := hA.user
  rcases ho with ho | ho
  · obtain ⟨pos, hloc, h1, h2, -⟩ := hF.placed _ d l ho
    rw [e3]
    refine ⟨_, hasAddress_of_loc hF.inv hA.pos hloc, ?_, ?_⟩
    · rw [hpl, addrOf]; omega
    · have : cursor s3 0 ≤ PAGE_SIZE := hF.inv.counter 0
      rw [addrOf]; rw [PAGE_SIZE_eq] at *; omega
  · obtain ⟨pos, hloc, h1, h2, -⟩ := hF.placed _ d l ho
    rw [e3]
    refine ⟨_, hasAddress_of_loc hF.inv hA.pos hloc, ?_, ?_⟩
    · rw [addrOf, DATA_PAGE]; omega
    · have : cursor s3 DATA_PAGE ≤ PAGE_SIZE := hF.inv.counter DATA_PAGE
      rw [addrOf]; rw [PAGE_SIZE_eq] at *; simp only [DATA_PAGE] at *; omega

/-- One step between statements is a step of the source program. -/
theorem source_step (hw : WellFormed pre is) (hA : Alloc base) {E : Effect} {s s' : State} (hs : AtStatement base mem pre is s)
    (hs' : AtStatement base mem pre is s') (h : X86.Step E s s') {n : Nat} (hn : placeW base mem (simple pre is) n = s.rip) :
    ∃ m, SourceRun base mem (simple pre is) encoded E 1 n s.data m s'.data ∧ placeW base mem (simple pre is) m = s'.rip := by
  obtain ⟨j, i, hj, hl, hd, hrip, hI⟩ := hs
  obtain ⟨j', i', hj', hl', hd', hrip', -⟩ := hs'
  obtain ⟨rip, d⟩ := s
  obtain ⟨rip', d'⟩ := s'
  simp only at hrip hrip' hI hn
  subst hrip
  subst hrip'
  have hskip := skip_to (M := encoded) (E := E) (d := d) hw hA hj hl hd hn
  obtain ⟨hv, -⟩ := place_strict (mem := mem) hw hA hj hl hd
  obtain ⟨t, ht⟩ := simple_runs hw base mem
  have hn := simple_label_at (pre := pre) hj
  have hR := simple_ready hw hA mem hn
  have hr := noRaw_simple pre is
  have hf := keepsLabels_runOps ht
  suffices ∃ m, SourceStep base mem (simple pre is) encoded E 1 (pre.length + j) d m d'
      ∧ placeW base mem (simple pre is) m = codeAt base mem pre is j' by
    obtain ⟨m, h1, h2⟩ := this
    refine ⟨m, sourceRun_append (j := 0) hskip (.step (j := 1) (k := 0) h1 ?_ (fun _ => hI) .done), h2⟩
    intro i2 hi2 _
    rw [hn] at hi2
    cases hi2
    exact hR
  -- jumps to constants and data do not lead to a statement
  have hobj : ∀ l, .Label l ∉ is → i.mentions l → BitVec.ofNat 64 (labelAddr (reach base mem (simple pre is)) l) ≠ codeAt base mem pre is j' := by
    intro l hl2 hm he
    rcases hw.defined i (List.mem_of_getElem? hj) l hm with ⟨c, hc, hne⟩ | h
    · obtain ⟨a, h1, h2, h3⟩ := object_behind hw hA mem hc hne
      rw [labelAddr_eq h1] at he
      have := ofNat_inj h3 (place_lt hw hA mem _) he
      obtain ⟨-, h4⟩ := place_strict (mem := mem) hw hA hj' hl' hd'
      obtain ⟨h5, -⟩ := List.getElem?_eq_some_iff.1 hj'
      have h6 := place_mono hw base mem (show pre.length + j' + 1 ≤ pre.length + is.length by omega)
      omega
    · exact hl2 h
  by_cases hb : ∀ l, i.mentions l → isDirect i → ∃ m, Binds base mem (simple pre is) m l
  · rcases C49_only_partial hA hr hf hn hv hR hI hb h with h | ⟨-, -, h⟩
    · exact h
    · exact absurd rfl (h (pre.length + j'))
  · obtain ⟨l, hl⟩ := Classical.not_forall.1 hb
    obtain ⟨hm, hl⟩ := Classical.not_imp.1 hl
    obtain ⟨hdir, hl⟩ := Classical.not_imp.1 hl
    have hl2 : .Label l ∉ is := fun h => by
      obtain ⟨j2, hj2⟩ := List.mem_iff_getElem?.1 h
      exact hl ⟨_, simple_binds hw base mem hj2⟩
    have hne := hobj l hl2 hm
    rw [← dist_add _ (Spec.place base mem (simple pre is) (pre.length + j + 1))] at hne
    obtain ⟨I, hI2⟩ := encoded_some hv (dist (labelAddr (reach base mem (simple pre is))) (Spec.place base mem (simple pre is) (pre.length + j + 1)))
    have h := (step_at hA hr hf hn hR hI2 hI).1 h
    unfold isDirect at hdir
    split at hdir
    · simp only [Inst.mentions, Inst.labels, Dest.labels, List.mem_singleton] at hm
      subst hm
      cases hI2
      generalize he : codeAt base mem pre is j' = r at h hne
      cases h with
      | jmpRel => exact absurd rfl hne
      | other h => cases h
    · simp only [Inst.mentions, Inst.labels, List.mem_singleton] at hm
      subst hm
      cases hI2
      generalize he : codeAt base mem pre is j' = r at h hne ⊢
      cases h with
      | jcc =>
        split at hne
        · exact absurd rfl hne
        · rename_i hc
          exact ⟨_, .notTaken hn (by simpa using hc), by rw [if_neg hc]⟩
      | other h => cases h
    · simp only [Inst.mentions, Inst.labels, Dest.labels, List.mem_singleton] at hm
      subst hm
      cases hI2
      generalize he : codeAt base mem pre is j' = r at h hne
      cases h with
      | callRel => exact absurd rfl hne
      | other h => cases h
    · cases hdir

theorem sourceStep_read {H : List Op} {M N : Reading} {E : Effect} {j n m : Nat} {d d' : Data}
    (h : ∀ i, H[n]? = some (.inst i) → ∀ rel, M rel i = N rel i) (hs : SourceStep base mem H N E j n d m d') :
    SourceStep base mem H M E j n d m d' := by
  cases hs with
  | skip h1 h2 => exact .skip h1 h2
  | jmp h1 h2 => exact .jmp h1 h2
  | taken h1 h2 h3 => exact .taken h1 h2 h3
  | notTaken h1 h2 => exact .notTaken h1 h2
  | call h1 h2 => exact .call h1 h2
  | seq h1 h2 h3 h4 => exact .seq h1 ((h _ h1 _).trans h2) h3 h4
  | indirect h1 h2 h3 h4 h5 => exact .indirect h1 h2 ((h _ h1 _).trans h3) h4 h5

theorem sourceRun_read {H : List Op} {M N : Reading} {E : Effect} {k n m : Nat} {d d' : Data}
    (h : ∀ (n : Nat) i, H[n]? = some (Op.inst i) → ∀ rel, M rel i = N rel i) (hs : SourceRun base mem H N E k n d m d') :
    SourceRun base mem H M E k n d m d' := by
  induction hs with
  | done => exact .done
  | step h1 h2 h3 _ ih =>
    exact .step (sourceStep_read (h _) h1) (fun i hi hj => { h2 i hi hj with read := fun rel => (h _ i hi rel).trans ((h2 i hi hj).read rel) }) h3 ih

end Monoasm
