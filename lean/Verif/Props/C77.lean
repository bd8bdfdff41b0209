import Verif.Proofs.Parallel
import Verif.Props.C65
/-
  C77: redirecting jumps while another processor executes them.

  `apply_jmp_patch_address` stores the new distance with one store of four bytes, wherever the jump is. A
  processor that executes the jump meanwhile finds the old or the new distance if the four bytes are in
  one line of the cache; otherwise it may find a part of each.
-/

namespace Monoasm
open Spec X86 JitMemory

variable {base : Nat} {mem : Nat → Monoasm.Byte} {K K' S S' : List Op} {E : Effect} {F : Host} {p p' : Crew} {d : Data} {op : Op} {s s' : State}

/-- If distances are stored in one line: what the processor does at any moment is a step of a program that
    is there, or of the program before or after the patch in progress. -/
theorem C77_partial (hA : Alloc base) (h : Crew.Run base (machine E) F (Redirecting base mem E F) K p K' p')
    (hr : SameRecords p.jit (reach base mem K)) (hH : Holding base mem K p.call p.cpu.data) :
    Crew.Run base (Told base mem E) F (Redirecting base mem E F) K p K' p'
      ∧ SameRecords p'.jit (reach base mem K') ∧ Holding base mem K' p'.call p'.cpu.data := crew_run hA h hr hH

/-- The jump that is being patched goes to its old label or to the new one. -/
theorem C77_jump_partial (hA : Alloc base) {n l t} (hQ : Redirecting base mem E F K (some op) s) (hH : Holding base mem K (some op) s.data)
    (hC : Complete base mem K S) (hn : S[n]? = some (.inst (.Jmp (.rel l)))) (hp : PatchesAt (reach base mem K) (Spec.place base mem K n) t op)
    (hrip : s.rip = placeW base mem K n) (hs : X86.Step E s s') :
    s'.data = s.data ∧ ∃ m, (Binds base mem K m l ∨ Binds base mem K m t) ∧ s'.rip = placeW base mem K m := by
  obtain ⟨r, δ⟩ := s
  obtain ⟨r', δ'⟩ := s'
  simp only at hrip hH
  subst hrip
  have hip := patches_isPatch hp
  rcases hQ with ⟨o, S0, S', e, -, hC0, hC', -, -⟩ | hQ
  · cases e
    cases becomes_unique (complete_smooth hC) hC.becomes hC0.becomes
    have hlen := becomes_length hC.becomes
    have hlt : n < S.length := (List.getElem?_eq_some_iff.1 hn).1
    simp only [Holding, hip, if_true] at hH
    rcases hH with hH | hH
    · rcases live_back hC hA hn (complete_valid hC hn rfl rfl) (loaded_intact hH n) hs with ⟨m, h1, rfl⟩ | ⟨⟨h1, -⟩, -⟩
      · obtain ⟨h2, h3⟩ := live_jmp hn h1
        exact ⟨h3, m, .inl h2, rfl⟩
      · cases h1
    · obtain ⟨m, i, t', hm, rfl, hj, hp'⟩ := patch_complete hip hC hC'
      obtain ⟨i0, l0, hn0, hi0⟩ : ∃ i0 l0, K[n]? = some (.inst i0) ∧ Patchable i0 l0 := by
        rcases complete_standsFor hC hn with ⟨h1, -⟩ | ⟨-, i0, l0, -, -, -, h1, h2, -⟩
        · exact ⟨_, l, h1, .inl rfl⟩
        · exact ⟨i0, l0, h1, h2⟩
      obtain ⟨rfl, rfl⟩ := patches_unique (complete_smooth hC) hn0 hi0 hj hp hp'
      cases hn.symm.trans hm
      have hn' : (S.set n (.inst (.Jmp (.rel t))) ++ [op])[n]? = some (.inst (.Jmp (.rel t))) := by
        rw [List.getElem?_append_left (by simpa using hlt), List.getElem?_set_self hlt]
      have e1 : placeW base mem K n = placeW base mem (K ++ [op]) n := by rw [placeW, placeW, place_snoc (by omega)]
      rw [e1] at hs
      rcases live_back hC' hA hn' (complete_valid hC' hn' rfl rfl) (loaded_intact hH n) hs with ⟨m, h1, rfl⟩ | ⟨⟨h1, -⟩, -⟩
      · obtain ⟨h2, h3⟩ := live_jmp hn' h1
        obtain ⟨h4, h5⟩ := binds_snoc hip h2
        exact ⟨h3, m, .inr h4, by rw [placeW, placeW, place_snoc (by omega)]⟩
      · cases h1
  · have := tame_not_patch (hQ.1.2.2 op rfl)
    rw [hip] at this
    cases this

/-- The same for a call; the return address is that of the next statement in any case. -/
theorem C77_call_partial (hA : Alloc base) {n l t} (hQ : Redirecting base mem E F K (some op) s) (hH : Holding base mem K (some op) s.data)
    (hC : Complete base mem K S) (hn : S[n]? = some (.inst (.Call (.rel l)))) (hp : PatchesAt (reach base mem K) (Spec.place base mem K n) t op)
    (hrip : s.rip = placeW base mem K n) (hs : X86.Step E s s') :
    s'.data = s.data.push (placeW base mem K (n + 1)) ∧ ∃ m, (Binds base mem K m l ∨ Binds base mem K m t) ∧ s'.rip = placeW base mem K m := by
  obtain ⟨r, δ⟩ := s
  obtain ⟨r', δ'⟩ := s'
  simp only at hrip hH
  subst hrip
  have hip := patches_isPatch hp
  rcases hQ with ⟨o, S0, S', e, -, hC0, hC', -, -⟩ | hQ
  · cases e
    cases becomes_unique (complete_smooth hC) hC.becomes hC0.becomes
    have hlen := becomes_length hC.becomes
    have hlt : n < S.length := (List.getElem?_eq_some_iff.1 hn).1
    simp only [Holding, hip, if_true] at hH
    rcases hH with hH | hH
    · rcases live_back hC hA hn (complete_valid hC hn rfl rfl) (loaded_intact hH n) hs with ⟨m, h1, rfl⟩ | ⟨⟨h1, -⟩, -⟩
      · obtain ⟨h2, h3⟩ := live_call hn h1
        exact ⟨h3, m, .inl h2, rfl⟩
      · cases h1
    · obtain ⟨m, i, t', hm, rfl, hj, hp'⟩ := patch_complete hip hC hC'
      obtain ⟨i0, l0, hn0, hi0⟩ : ∃ i0 l0, K[n]? = some (.inst i0) ∧ Patchable i0 l0 := by
        rcases complete_standsFor hC hn with ⟨h1, -⟩ | ⟨-, i0, l0, -, -, -, h1, h2, -⟩
        · exact ⟨_, l, h1, .inr rfl⟩
        · exact ⟨i0, l0, h1, h2⟩
      obtain ⟨rfl, rfl⟩ := patches_unique (complete_smooth hC) hn0 hi0 hj hp hp'
      cases hn.symm.trans hm
      have hn' : (S.set n (.inst (.Call (.rel t))) ++ [op])[n]? = some (.inst (.Call (.rel t))) := by
        rw [List.getElem?_append_left (by simpa using hlt), List.getElem?_set_self hlt]
      have e1 : placeW base mem K n = placeW base mem (K ++ [op]) n := by rw [placeW, placeW, place_snoc (by omega)]
      rw [e1] at hs
      rcases live_back hC' hA hn' (complete_valid hC' hn' rfl rfl) (loaded_intact hH n) hs with ⟨m, h1, rfl⟩ | ⟨⟨h1, -⟩, -⟩
      · obtain ⟨h2, h3⟩ := live_call hn' h1
        obtain ⟨h4, h5⟩ := binds_snoc hip h2
        have e2 : placeW base mem K (n + 1) = placeW base mem (K ++ [op]) (n + 1) := by rw [placeW, placeW, place_snoc (by omega)]
        exact ⟨h3.trans (by rw [e2]), m, .inr h4, by rw [placeW, placeW, place_snoc (by omega)]⟩
      · cases h1
  · have := tame_not_patch (hQ.1.2.2 op rfl)
    rw [hip] at this
    cases this

/-- The four bytes are in one line if the jump is not at one of the last bytes of a line. -/
theorem C77_line {a t} {j : JitMemory} (hp : PatchesAt j a t op) :
    (∀ x y, Overwrites j op x → Overwrites j op y → x / LINE = y / LINE) ↔ (a + 1) % LINE ≤ LINE - 4 := by
  have key : ∀ x, Overwrites j op x ↔ a + 1 ≤ x ∧ x < a + 5 := by
    intro x
    refine ⟨patches_overwrites hp, fun h => ?_⟩
    unfold PatchesAt at hp
    split at hp
    · exact ⟨a, hp.2.1, h⟩
    · rw [← hp.2] at h; exact h
    · exact hp.elim
  simp only [key, LINE]
  constructor
  · intro h
    have := h (a + 1) (a + 4) (by omega) (by omega)
    omega
  · intro h x y hx hy
    omega

/-! ### An endless loop that is redirected to another one -/

def C77_loops : List Op := [.new .label, .new .label, .bind_label 0, .inst (.Jmp (.rel 0)), .bind_label 1, .inst (.Jmp (.rel 1)), .finalize]

private theorem alloc : Alloc 0x10000000 := ⟨by rw [PAGE_SIZE_eq]; decide, by decide, by rw [PAGE_SIZE_eq]; decide⟩

theorem C77_loops_ok : Complete 0x10000000 (fun _ => 0xcc) C77_loops C77_loops
    ∧ Complete 0x10000000 (fun _ => 0xcc) (C77_loops ++ [.apply_jmp_patch_address 0x10000000 1])
      (C77_loops.set 3 (.inst (.Jmp (.rel 1))) ++ [.apply_jmp_patch_address 0x10000000 1]) :=
  ⟨C65_check alloc (by decide +kernel), C65_check alloc (by decide +kernel)⟩

private theorem jump_keeps (hC : Complete 0x10000000 mem K S) {n l} (hn : S[n]? = some (.inst (.Jmp (.rel l)))) (hL : Loaded 0x10000000 mem K d)
    (hs : X86.Step E ⟨placeW 0x10000000 mem K n, d⟩ s') : s'.data = d := by
  obtain ⟨r', δ'⟩ := s'
  rcases live_back hC alloc hn (complete_valid hC hn rfl rfl) (loaded_intact hL n) hs with ⟨m, h1, rfl⟩ | ⟨⟨h1, -⟩, -⟩
  · exact (live_jmp hn h1).2
  · cases h1

/-- The processor is in the first loop while it is redirected to the second. -/
example (hH : Holding 0x10000000 (fun _ => 0xcc) C77_loops (some (.apply_jmp_patch_address 0x10000000 1)) d) :
    Redirecting 0x10000000 (fun _ => 0xcc) E (fun _ _ => False) C77_loops (some (.apply_jmp_patch_address 0x10000000 1))
      ⟨placeW 0x10000000 (fun _ => 0xcc) C77_loops 3, d⟩ := by
  refine .inl ⟨_, _, _, rfl, rfl, C77_loops_ok.1, C77_loops_ok.2, ?_, .inr ⟨3, _, rfl, rfl, rfl, rfl⟩, ?_⟩
  · rintro a b ⟨h1, h2⟩ ⟨h3, h4⟩
    simp only [LINE]
    omega
  · rintro s' (hs | hs) a - -
    · rcases (hH : _ ∨ _) with hH | hH
      · rw [jump_keeps C77_loops_ok.1 rfl hH hs]
      · have e : placeW 0x10000000 (fun _ => 0xcc) C77_loops 3 = placeW 0x10000000 (fun _ => 0xcc) (C77_loops ++ [.apply_jmp_patch_address 0x10000000 1]) 3 := rfl
        rw [e] at hs
        rw [jump_keeps C77_loops_ok.2 rfl hH hs]
    · exact hs.elim

/-! ### A jump across two lines

    The distance of the jump is at 0x1000003e to 0x10000041. The jump goes backwards, and is redirected to
    a label behind it. -/

def C77_program : List Op :=
  [.new .label, .new .label, .bind_label 0] ++ List.replicate 61 (.inst .Leave) ++ [.inst (.Jmp (.rel 0)), .bind_label 1, .inst .Ret, .finalize]

def C77_patch : Op := .apply_jmp_patch_address 0x1000003d 1

theorem C77_program_ok : Complete 0x10000000 (fun _ => 0xcc) C77_program C77_program := C65_check alloc (by decide +kernel)

theorem C77_patched_ok :
    Complete 0x10000000 (fun _ => 0xcc) (C77_program ++ [C77_patch]) (C77_program.set 64 (.inst (.Jmp (.rel 1))) ++ [C77_patch]) :=
  C65_check alloc (by decide +kernel)

private theorem places : Spec.place 0x10000000 (fun _ => 0xcc) C77_program 64 = 0x1000003d := by decide +kernel

private theorem old_bytes : (reach 0x10000000 (fun _ => 0xcc) C77_program).mem 0x1000003d = 0xe9
    ∧ (reach 0x10000000 (fun _ => 0xcc) C77_program).mem 0x10000040 = 0xff
    ∧ (reach 0x10000000 (fun _ => 0xcc) C77_program).mem 0x10000041 = 0xff := by decide +kernel

private theorem new_bytes : (reach 0x10000000 (fun _ => 0xcc) (C77_program ++ [C77_patch])).mem 0x1000003e = 0
    ∧ (reach 0x10000000 (fun _ => 0xcc) (C77_program ++ [C77_patch])).mem 0x1000003f = 0 := by decide +kernel

private theorem stores : Stores (reach 0x10000000 (fun _ => 0xcc) C77_program) C77_patch 0x1000003e
    ∧ Stores (reach 0x10000000 (fun _ => 0xcc) C77_program) C77_patch 0x1000003f :=
  ⟨⟨fun _ => 0xcc, by decide +kernel⟩, ⟨fun _ => 0xcc, by decide +kernel⟩⟩

private theorem home : ¬ Foreign 0x10000000 0x1000003d#64 := by rw [Foreign, PAGE_SIZE_eq]; decide

private theorem fetch_five (m : BitVec 64 → Monoasm.Byte) (r : BitVec 64) :
    fetch m r = m (r + BitVec.ofNat 64 0) :: m (r + BitVec.ofNat 64 1) :: m (r + BitVec.ofNat 64 2) :: m (r + BitVec.ofNat 64 3)
      :: m (r + BitVec.ofNat 64 4) :: (List.range 10).map fun i => m (r + BitVec.ofNat 64 (i + 5)) := rfl

private theorem decode_torn (tail : List Monoasm.Byte) :
    decode (0xe9 :: 0 :: 0 :: 0xff :: 0xff :: tail) = some (.jmpRel 0xffffffffffff0000#64, tail) := rfl

private theorem torn {K : List Op} {j : JitMemory} (hj : SameRecords j (reach 0x10000000 (fun _ => 0xcc) K))
    (hL : Loaded 0x10000000 (fun _ => 0xcc) K d)
    (o0 : (reach 0x10000000 (fun _ => 0xcc) K).mem 0x1000003d = 0xe9)
    (o1 : (reach 0x10000000 (fun _ => 0xcc) K).mem 0x10000040 = 0xff) (o2 : (reach 0x10000000 (fun _ => 0xcc) K).mem 0x10000041 = 0xff)
    (n1 : (reach 0x10000000 (fun _ => 0xcc) (K ++ [C77_patch])).mem 0x1000003e = 0)
    (n2 : (reach 0x10000000 (fun _ => 0xcc) (K ++ [C77_patch])).mem 0x1000003f = 0)
    (s1 : Stores j C77_patch 0x1000003e) (s2 : Stores j C77_patch 0x1000003f) :
    ∃ d', Crew.Run 0x10000000 (machine E) F (fun _ _ _ => True) K ⟨⟨0x1000003d#64, d⟩, j, none⟩
      K ⟨⟨0x0fff0042#64, d'⟩, j, some C77_patch⟩ := by
  obtain ⟨m, hm⟩ : ∃ m : BitVec 64 → Monoasm.Byte, m = fun x => if x = 0x1000003e#64 then 0 else if x = 0x1000003f#64 then 0 else d.mem x := ⟨_, rfl⟩
  have a1 : (0x1000003e#64 : BitVec 64).toNat = 0x1000003e := by decide +kernel
  have a2 : (0x1000003f#64 : BitVec 64).toNat = 0x1000003f := by decide +kernel
  have t1 : Crew.Step 0x10000000 (machine E) F K ⟨⟨0x1000003d#64, d⟩, j, none⟩ [] ⟨⟨0x1000003d#64, d⟩, j, some C77_patch⟩ := .start _
  have t2 : Crew.Step 0x10000000 (machine E) F K ⟨⟨0x1000003d#64, d⟩, j, some C77_patch⟩ []
      ⟨⟨0x1000003d#64, { d with mem := m }⟩, j, some C77_patch⟩ := by
    refine .patch 0x400000 rfl (fun x hx hs => ?_) fun x hx => ?_
    · obtain ⟨h1, h2⟩ : 0x1000003d + 1 ≤ x.toNat ∧ x.toNat < 0x1000003d + 5 := stores_overwrites rfl hs
      have : x = 0x1000003e#64 ∨ x = 0x1000003f#64 := by
        simp only [LINE] at hx
        have : x.toNat = 0x1000003e ∨ x.toNat = 0x1000003f := by omega
        rcases this with h | h
        · exact .inl (BitVec.eq_of_toNat_eq (h.trans a1.symm))
        · exact .inr (BitVec.eq_of_toNat_eq (h.trans a2.symm))
      rcases this with rfl | rfl
      · rw [run_joined hj hs, a1, n1, hm]; rfl
      · rw [run_joined hj hs, a2, n2, hm]; rfl
    · rw [hm]
      by_cases e1 : x = 0x1000003e#64
      · exact absurd ⟨by rw [e1, a1]; decide, by rw [e1, a1]; exact s1⟩ hx
      · by_cases e2 : x = 0x1000003f#64
        · exact absurd ⟨by rw [e2, a2]; decide, by rw [e2, a2]; exact s2⟩ hx
        · simp only [if_neg e1, if_neg e2]
  have t3 : Crew.Step 0x10000000 (machine E) F K ⟨⟨0x1000003d#64, { d with mem := m }⟩, j, some C77_patch⟩ []
      ⟨⟨0x0fff0042#64, { d with mem := m }⟩, j, some C77_patch⟩ := by
    refine .code home ?_
    have hv : ∀ a, 0x10000000 ≤ a → a < 0x10000100 → d.mem (BitVec.ofNat 64 a) = (reach 0x10000000 (fun _ => 0xcc) K).mem a := fun a h1 h2 =>
      hL a h1 (by rw [PAGE_SIZE_eq]; omega)
    have b0 : m 0x1000003d#64 = 0xe9 := by rw [hm]; exact (hv 0x1000003d (by omega) (by omega)).trans o0
    have b1 : m 0x1000003e#64 = 0 := by rw [hm]; rfl
    have b2 : m 0x1000003f#64 = 0 := by rw [hm]; rfl
    have b3 : m 0x10000040#64 = 0xff := by rw [hm]; exact (hv 0x10000040 (by omega) (by omega)).trans o1
    have b4 : m 0x10000041#64 = 0xff := by rw [hm]; exact (hv 0x10000041 (by omega) (by omega)).trans o2
    have hf := fetch_five m 0x1000003d#64
    rw [show 0x1000003d#64 + BitVec.ofNat 64 0 = 0x1000003d#64 by decide, show 0x1000003d#64 + BitVec.ofNat 64 1 = 0x1000003e#64 by decide,
      show 0x1000003d#64 + BitVec.ofNat 64 2 = 0x1000003f#64 by decide, show 0x1000003d#64 + BitVec.ofNat 64 3 = 0x10000040#64 by decide,
      show 0x1000003d#64 + BitVec.ofNat 64 4 = 0x10000041#64 by decide, b0, b1, b2, b3, b4] at hf
    have hd := decode_torn ((List.range 10).map fun i => m (0x1000003d#64 + BitVec.ofNat 64 (i + 5)))
    rw [← hf] at hd
    have := X86.Step.mk (E := E) (d := { d with mem := m }) hd .jmpRel
    simp only [List.length_map, List.length_range] at this
    exact this
  have e := List.append_nil K
  refine ⟨{ d with mem := m }, .step trivial t1 ?_⟩
  rw [e]
  refine .step trivial t2 ?_
  rw [e]
  refine .step trivial t3 ?_
  rw [e]
  exact .done trivial

/-- A processor that executes the jump while it is being redirected from label 0 to label 1 goes astray:
    64 kilobytes below its code. -/
theorem C77_torn (hL : Loaded 0x10000000 (fun _ => 0xcc) C77_program d) :
    ∃ d', Crew.Run 0x10000000 (machine E) F (fun _ _ _ => True)
        C77_program ⟨⟨placeW 0x10000000 (fun _ => 0xcc) C77_program 64, d⟩, reach 0x10000000 (fun _ => 0xcc) C77_program, none⟩
        C77_program ⟨⟨0x0fff0042#64, d'⟩, reach 0x10000000 (fun _ => 0xcc) C77_program, some C77_patch⟩
      ∧ Foreign 0x10000000 0x0fff0042#64 := by
  rw [placeW, places]
  obtain ⟨d', h⟩ := torn (E := E) (F := F) (.refl _) hL old_bytes.1 old_bytes.2.1 old_bytes.2.2 new_bytes.1 new_bytes.2 stores.1 stores.2
  exact ⟨d', h, by rw [Foreign]; left; decide⟩

end Monoasm
