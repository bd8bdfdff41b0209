import Verif.Props.C44
import Verif.Spec.Source
/-
  Helper lemmas for C49.
-/

namespace Monoasm
open Spec X86 JitMemory

variable {M : Reading} {base : Nat} {mem : Nat → Monoasm.Byte} {H : List Op} {n m : Nat} {i : Inst Val Nat} {I : Instr} {l : DestLabel}

theorem split_at {α} {H : List α} {n : Nat} {x : α} (h : H[n]? = some x) : H = H.take n ++ [x] ++ H.drop (n + 1) := by
  obtain ⟨hn, rfl⟩ := List.getElem?_eq_some_iff.1 h
  rw [List.take_append_getElem hn, List.take_append_drop]

theorem take_at {α} {H : List α} {n : Nat} {x : α} (h : H[n]? = some x) : H.take (n + 1) = H.take n ++ [x] := by
  obtain ⟨hn, rfl⟩ := List.getElem?_eq_some_iff.1 h
  exact (List.take_append_getElem hn).symm

theorem finalize_take {k : Nat} (hk : Finishes base mem H k) :
    finalize (reach base mem (H.take k)) = .ok () (reach base mem (H.take (k + 1))) := by
  obtain ⟨hk, s', hs'⟩ := hk
  rw [hs', take_at hk]
  simp only [reach, runCaught_append] at hs' ⊢
  rw [runCaught_cons]
  show _ = Res.ok () (finalize (runCaught (H.take k) (JitMemory.new base mem))).state
  rw [hs']
  rfl

/-- If no `finalize` panics each of them finishes. -/
theorem finishes_at {k : Nat} (hf : NoFinalizePanic (JitMemory.new base mem) H) (hk : H[k]? = some .finalize) :
    Finishes base mem H k := by
  refine ⟨hk, ?_⟩
  have : H.take k ++ .finalize :: H.drop (k + 1) = H := by rw [List.append_cons]; exact (split_at hk).symm
  rw [← this] at hf
  obtain ⟨-, hf2, -⟩ := noFinalizePanic_append.1 hf
  exact hf2 rfl

theorem runs_reach {s1} (hn : H[n]? = some (.inst i)) (h : Runs i (reach base mem (H.take n)) s1) :
    reach base mem (H.take (n + 1)) = s1 := by
  rw [take_at hn]
  simp only [reach, runCaught_append]
  exact runsAll_caught (is := [i]) (runsAll_cons.2 ⟨s1, h, runsAll_nil.2 rfl⟩)

/-- Code of a statement at the end of the history. -/
theorem decode_at (hA : Alloc base) (hr : NoRaw H) (hf : KeepsLabels (JitMemory.new base mem) H)
    (hn : H[n]? = some (.inst i)) (hR : Ready base mem H M n i) (hI : instrAt base mem H M n i = some I) (tail : List Monoasm.Byte) :
    X86.decode (bytes (reach base mem H).mem (place base mem H n) (place base mem H (n + 1) - place base mem H n) ++ tail)
      = some (I, tail) := by
  obtain ⟨s1, h1⟩ := hR.runs
  have e1 := runs_reach hn h1
  obtain ⟨k, hk, hfk, hbd⟩ := hR.final
  have hfin := hfk.1
  have hfk := finalize_take hfk
  have eH := split_at hn
  have ed : H.drop (n + 1) = (H.drop (n + 1)).take (k - (n + 1)) ++ .finalize :: H.drop (k + 1) := by
    have : (H.drop (n + 1))[k - (n + 1)]? = some .finalize := by
      rw [List.getElem?_drop, show n + 1 + (k - (n + 1)) = k by omega]; exact hfin
    have := split_at this
    rw [List.drop_drop, show n + 1 + (k - (n + 1) + 1) = k + 1 by omega] at this
    simpa using this
  have et : H.take k = H.take n ++ [.inst i] ++ (H.drop (n + 1)).take (k - (n + 1)) := by
    rw [← take_at hn, List.take_drop, show n + 1 + (k - (n + 1)) = k by omega]
    have := (List.take_append_drop (n + 1) (H.take k)).symm
    rwa [List.take_take, Nat.min_eq_left (by omega)] at this
  have hp : place base mem H (n + 1) = here s1 := by rw [place, e1]
  have := C44_instruction (h1 := H.take n) (h := H.drop (n + 1)) (I := I) hA ed (by rw [← eH]; exact hr)
    (by rw [← eH]; exact hf) h1 (by simpa only [place, e1] using hR.spared) (by rw [← eH]; exact hR.once)
    (by rw [← et]; exact hfk) hbd (by rw [← eH, ← hp, ← hR.read]; exact hI) tail
  simp only [← eH] at this
  rwa [hp]

theorem runs_len {s s1} (h : Runs i s s1) : here s ≤ here s1 ∧ here s1 ≤ here s + 15 := by
  have := runsAll_here (is := [i]) (runsAll_cons.2 ⟨s1, h, runsAll_nil.2 rfl⟩)
  simp only [List.length_singleton] at this
  constructor <;> omega

theorem placeW_add {a b : Nat} (h : a ≤ b) : BitVec.ofNat 64 a + BitVec.ofNat 64 (b - a) = BitVec.ofNat 64 b := by
  rw [← BitVec.ofNat_add, Nat.add_sub_cancel' h]

theorem fetch_at {d : Data} {s1} (hn : H[n]? = some (.inst i)) (h1 : Runs i (reach base mem (H.take n)) s1)
    (hd : Intact base mem H n d) : ∃ tail, place base mem H n ≤ place base mem H (n + 1)
      ∧ 15 - tail.length = place base mem H (n + 1) - place base mem H n
      ∧ fetch d.mem (placeW base mem H n)
        = bytes (reach base mem H).mem (place base mem H n) (place base mem H (n + 1) - place base mem H n) ++ tail := by
  have hp : place base mem H (n + 1) = here s1 := by rw [place, runs_reach hn h1]
  have hl := runs_len h1
  have hp0 : place base mem H n = here (reach base mem (H.take n)) := rfl
  rw [← hp, ← hp0] at hl
  refine ⟨(List.range (15 - (place base mem H (n + 1) - place base mem H n))).map fun j => d.mem (placeW base mem H n
    + BitVec.ofNat 64 (place base mem H (n + 1) - place base mem H n + j)), hl.1, by simp; omega, ?_⟩
  have : (15 : Nat) = (place base mem H (n + 1) - place base mem H n) + (15 - (place base mem H (n + 1) - place base mem H n)) := by
    omega
  rw [fetch, this, List.range_add, List.map_append, ← this]
  congr 1
  · refine List.map_congr_left fun j hj => ?_
    rw [List.mem_range] at hj
    rw [placeW, ← BitVec.ofNat_add]
    exact hd _ (by omega) (by omega)
  · rw [List.map_map]; rfl

/-- The step of the processor at the code of a statement. -/
theorem step_at {E : Effect} {d d' : Data} {r} (hA : Alloc base) (hr : NoRaw H) (hf : KeepsLabels (JitMemory.new base mem) H)
    (hn : H[n]? = some (.inst i)) (hR : Ready base mem H M n i) (hI : instrAt base mem H M n i = some I)
    (hd : Intact base mem H n d) :
    X86.Step E ⟨placeW base mem H n, d⟩ ⟨r, d'⟩ ↔ Exec E (placeW base mem H (n + 1)) I d r d' := by
  obtain ⟨s1, h1⟩ := hR.runs
  obtain ⟨tail, h2, h3, h4⟩ := fetch_at hn h1 hd
  have h5 := decode_at hA hr hf hn hR hI tail
  rw [← h4] at h5
  have h6 : placeW base mem H n + BitVec.ofNat 64 (15 - tail.length) = placeW base mem H (n + 1) := by
    rw [h3]; exact placeW_add h2
  constructor
  · rintro (⟨h7, h8⟩)
    rw [h5] at h7
    cases h7
    rwa [h6] at h8
  · intro h7
    exact .mk h5 (by rwa [h6])

/-- A label has the address of the place where it is bound. -/
theorem binds_address (hA : Alloc base) (hr : NoRaw H) (hf : KeepsLabels (JitMemory.new base mem) H)
    (hb : BindsOnce l (JitMemory.new base mem) H) (h : Binds base mem H m l) :
    HasAddress (reach base mem H) l (place base mem H m) := by
  obtain ⟨h, hl⟩ := h
  rcases h with h | h
  · have e := split_at h
    have e' : H = H.take m ++ .inst (.Label l) :: H.drop (m + 1) := by rw [List.append_cons]; exact e
    have := C44_label (h1 := H.take m) (h := H.drop (m + 1)) (l := l) hA (by rw [← e']; exact hr) (by rw [← e']; exact hf)
      (by rw [← e']; exact hb) hl
    rwa [← e'] at this
  · have e := split_at h
    have e' : H = H.take m ++ .bind_label l :: H.drop (m + 1) := by rw [List.append_cons]; exact e
    have := C44_bind (h1 := H.take m) (h := H.drop (m + 1)) (l := l) hA (by rw [← e']; exact hr) (by rw [← e']; exact hf)
      (by rw [← e']; exact hb) hl
    rwa [← e'] at this

theorem dist_add (la : Nat → Nat) (a : Nat) (l : DestLabel) : BitVec.ofNat 64 a + dist la a l = BitVec.ofNat 64 (la l) := by
  apply BitVec.eq_of_toNat_eq
  simp only [dist, BitVec.toNat_add, BitVec.toNat_ofNat, BitVec.toNat_ofInt]
  omega

theorem steps_append {E : Effect} {a b : Nat} {s s' s'' : State} (h1 : Steps E a s s') (h2 : Steps E b s' s'') : Steps E (a + b) s s'' := by
  induction h1 with
  | zero => rwa [Nat.zero_add]
  | succ h _ ih => rw [Nat.add_right_comm]; exact .succ h (ih h2)

end Monoasm
