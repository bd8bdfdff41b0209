import Verif.Proofs.Slice
import Verif.Proofs.Listing
import Verif.Proofs.Dump
/-
  C22: ranges of `as_slice` and `dump_code`.

  The last `finalize` came after history `h1` (it may have panicked); the further calls `h2` contain no
  `finalize`. `dump_slice` is the slice that `dump_code` hands to `objdump` (`none`: panic).
-/

namespace Monoasm
open Spec

variable {base : Nat} {mem : Nat → Byte} {h1 h2 : List Op}

theorem as_slice_eq (s : JitMemory) : s.as_slice = bytes s.mem (s.pages s.page).contents (s.pages s.page).code_len := rfl

/-- `as_slice()` is exactly the bytes of the selected page from its start up to the end of code (the
    cursor of that page) at the last `finalize`, also if that panicked. -/
theorem C22_as_slice (hn : NoFinalize h2) :
    let s := reach base mem (h1 ++ .finalize :: h2)
    s.as_slice = bytes s.mem (addrOf base s.page 0) (cursor (reach base mem h1) s.page) := by
  intro s
  have hi := inv_reach base mem (h1 ++ .finalize :: h2)
  have hp : s.page < 3 := Nat.lt_trans hi.page (by decide)
  have hb := blocks_caught (h := h2) (inv_op (inv_reach base mem h1) .finalize) hn s.page
  have e : s = runCaught h2 (JitMemory.finalize (reach base mem h1)).state := reach_finalize base mem h1 h2
  obtain ⟨⟨h1, -⟩, -⟩ := finalize_records (inv_reach base mem h1) hp
  rw [show ((runCaught h2 ((Op.run .finalize) (reach base mem _)).state).pages s.page) = s.pages s.page by rw [e]; rfl] at hb
  rw [as_slice_eq, hb.1, hi.contents]
  exact congrArg _ h1

/-- The bytes of a page are also accessible one at a time (`jit[Page(p)][Pos(i)]`): in any reachable state
    those of the whole page are, and no others; ... -/
theorem C22_index (h : List Op) (p : Page) (pos : Nat) :
    (pos < PAGE_SIZE → MemPage.read p pos (reach base mem h) = .ok ((reach base mem h).mem (addrOf base p pos)) (reach base mem h))
    ∧ (PAGE_SIZE ≤ pos → MemPage.read p pos (reach base mem h) = .panic .pageSizeOverflow (reach base mem h)) := by
  have hi := inv_reach base mem h
  refine ⟨fun h => ?_, fun h => ?_⟩
  · rw [MemPage.read, if_neg (by omega), hi.contents]; rfl
  · rw [MemPage.read, if_pos h]

/-- It lies inside the page and inside what has been emitted. -/
theorem C22_in_page (hn : NoFinalize h2) :
    let s := reach base mem (h1 ++ .finalize :: h2)
    s.as_slice.length ≤ cursor s s.page ∧ cursor s s.page ≤ PAGE_SIZE := by
  intro s
  have hi := inv_reach base mem (h1 ++ .finalize :: h2)
  have hp : s.page < 3 := Nat.lt_trans hi.page (by decide)
  have hb := blocks_caught (h := h2) (inv_op (inv_reach base mem h1) .finalize) hn s.page
  have e : s = runCaught h2 (JitMemory.finalize (reach base mem h1)).state := reach_finalize base mem h1 h2
  obtain ⟨⟨-, h3⟩, -⟩ := finalize_records (inv_reach base mem h1) hp
  rw [show (runCaught h2 ((Op.run .finalize) (reach base mem _)).state) = s from e.symm] at hb
  rw [show s.as_slice = _ from C22_as_slice hn]
  refine ⟨?_, hi.counter _⟩
  simp only [bytes, List.length_map, List.length_range]
  exact Nat.le_trans h3 hb.2.2.2

/-- ... they are what `as_slice` gives for the code of the selected page. -/
theorem C22_index_slice (hn : NoFinalize h2) {i : Nat} {v : Byte}
    (hv : (reach base mem (h1 ++ .finalize :: h2)).as_slice[i]? = some v) :
    MemPage.read (reach base mem (h1 ++ .finalize :: h2)).page i (reach base mem (h1 ++ .finalize :: h2))
      = .ok v (reach base mem (h1 ++ .finalize :: h2)) := by
  have hl := C22_in_page (base := base) (mem := mem) (h1 := h1) hn
  obtain ⟨hlt, -⟩ := List.getElem?_eq_some_iff.1 hv
  rw [as_slice_eq, bytes, List.getElem?_map] at hv
  obtain ⟨k, hk, rfl⟩ := Option.map_eq_some_iff.1 hv
  obtain ⟨-, rfl⟩ := List.getElem?_eq_some_iff.1 hk
  rw [MemPage.read, if_neg (by omega), List.getElem_range]

/-- `dump_code`'s slice is in range: the code emitted on the selected page between the last two
    `finalize`s (those that panicked do not count as the first of the two). -/
theorem C22_dump (hn : NoFinalize h2) :
    let s := reach base mem (h1 ++ .finalize :: h2)
    let start := ((reach base mem h1).pages s.page).code_block_top
    start ≤ cursor (reach base mem h1) s.page ∧
    s.dump_slice = some (bytes s.mem (addrOf base s.page start) (cursor (reach base mem h1) s.page - start)) := by
  intro s start
  have hi := inv_reach base mem (h1 ++ .finalize :: h2)
  have hp : s.page < 3 := Nat.lt_trans hi.page (by decide)
  have hb := blocks_caught (h := h2) (inv_op (inv_reach base mem h1) .finalize) hn s.page
  have e : s = runCaught h2 (JitMemory.finalize (reach base mem h1)).state := reach_finalize base mem h1 h2
  obtain ⟨-, ⟨stop, hst⟩, -⟩ := finalize_records (inv_reach base mem h1) hp
  rw [show (runCaught h2 ((Op.run .finalize) (reach base mem _)).state) = s from e.symm] at hb
  have hle : start ≤ cursor (reach base mem h1) s.page := top_reach hp h1
  refine ⟨hle, ?_⟩
  have hs : s.as_slice = bytes s.mem (addrOf base s.page 0) (cursor (reach base mem h1) s.page) := C22_as_slice hn
  have hblk : (s.pages s.page).code_block.getLast? = some (start, cursor (reach base mem h1) s.page, stop) := by
    rw [hb.2.2.1, show ((Op.run .finalize) (reach base mem h1)).state = (JitMemory.finalize (reach base mem h1)).state from rfl, hst]; simp; rfl
  simp only [JitMemory.dump_slice, hblk, hs]
  have hlen : (bytes s.mem (addrOf base s.page 0) (cursor (reach base mem h1) s.page)).length = cursor (reach base mem h1) s.page := by
    simp [bytes]
  rw [if_pos ⟨hle, by rw [hlen]; exact Nat.le_refl _⟩, List.take_of_length_le (by rw [hlen]; exact Nat.le_refl _)]
  have h2 : bytes s.mem (addrOf base s.page 0) (cursor (reach base mem h1) s.page)
      = bytes s.mem (addrOf base s.page 0) start
        ++ bytes s.mem (addrOf base s.page 0 + start) (cursor (reach base mem h1) s.page - start) := by
    rw [← bytes_split, Nat.add_sub_cancel' hle]
  rw [h2, List.drop_left' (by simp [bytes])]
  rfl

/-- Before any `finalize`, `as_slice` is empty (and `dump_code` panics). -/
theorem C22_before {h : List Op} (hn : NoFinalize h) :
    (reach base mem h).as_slice = [] ∧ (reach base mem h).dump_slice = none := by
  have hb := blocks_caught (h := h) (inv_new base mem) hn (reach base mem h).page
  have e1 : ((reach base mem h).pages (reach base mem h).page).code_len = 0 := hb.1
  have e2 : ((reach base mem h).pages (reach base mem h).page).code_block = [] := hb.2.2.1
  refine ⟨?_, ?_⟩
  · rw [as_slice_eq, e1]; rfl
  · simp only [JitMemory.dump_slice, e2]; rfl

example :
    let h1 : List Op := [.inst .Leave, .new (.const_i64 1), .finalize, .inst .Ret, .inst .Leave, .select_page 1, .inst .Ret]
    let h2 : List Op := [.inst .Ret, .select_page 0]
    let s := reach 0x10000000 (fun _ => 0xcc) (h1 ++ .finalize :: h2)
    NoFinalizePanic (JitMemory.new 0x10000000 (fun _ => 0xcc)) (h1 ++ [.finalize])
    ∧ s.as_slice.length = 26 ∧ s.as_slice.head? = some 0xc9 ∧ s.dump_slice = some [0xc3, 0xc9] := by
  exact ⟨by decide +kernel, by decide +kernel, by decide +kernel, by decide +kernel⟩

/-- A `finalize` that panicked (an unknown label): the code is there. -/
example :
    let s := reach 0x10000000 (fun _ => 0xcc) [.new (.abs_address 9), .inst .Ret, .finalize]
    ¬ NoFinalizePanic (JitMemory.new 0x10000000 (fun _ => 0xcc)) [.new (.abs_address 9), .inst .Ret, .finalize]
    ∧ s.as_slice = [0xc3] ∧ s.dump_slice = some [0xc3] := by
  exact ⟨by decide +kernel, by decide +kernel, by decide +kernel⟩

/-- The text that `dump_code` returns is the listing without the header of `objdump`'s output: every line of
    the listing, in order, and nothing else. -/
theorem C22_listing (path : List Char) (hp : '\n' ∉ path) (ls : List (List Char)) (h : ∀ l ∈ ls, ListingLine l) :
    dumpFilter (objdumpOutput path ls) = dumpLines ls := by
  have e : objdumpOutput path ls
      = [] ++ '\n' :: ((path ++ ":     file format binary".toList) ++ '\n' :: ([] ++ '\n' :: ([] ++ '\n' ::
        ("Disassembly of section .data:".toList ++ '\n' :: ([] ++ '\n' ::
          ("00000000 <.data>:".toList ++ '\n' :: dumpLines ls)))))) := by
    simp [objdumpOutput, objdumpHeader]
  have hf : keepsLine (path ++ ":     file format binary".toList ++ ['\n']) = false := by
    have : strContains "file format binary".toList (path ++ ":     file format binary".toList ++ ['\n']) = true :=
      (strContains_iff _ _).2 ⟨path ++ ":     ".toList, ['\n'], by simp⟩
    simp only [keepsLine, this, Bool.not_true, Bool.and_false, Bool.false_and]
  have hpath : '\n' ∉ path ++ ":     file format binary".toList := by
    intro hm
    rcases List.mem_append.1 hm with hm | hm
    · exact hp hm
    · revert hm; decide
  rw [e, dumpFilter_line _ _ (by simp), dumpFilter_line _ _ hpath, dumpFilter_line _ _ (by simp),
    dumpFilter_line _ _ (by simp), dumpFilter_line _ _ (by decide), dumpFilter_line _ _ (by simp),
    dumpFilter_line _ _ (by decide), hf, dumpFilter_listing ls h]
  rw [show keepsLine ([] ++ ['\n']) = false by decide,
    show keepsLine ("Disassembly of section .data:".toList ++ ['\n']) = false by decide,
    show keepsLine ("00000000 <.data>:".toList ++ ['\n']) = false by decide]
  rfl

/-- Nothing printed (the file was empty, `objdump` failed): nothing is returned. In any case the result consists
    of whole lines of the output, in order. -/
theorem C22_lines (out : List Char) :
    dumpFilter [] = [] ∧ (splitInclusive out).flatten = out
    ∧ ∃ kept : List (List Char), kept.Sublist (splitInclusive out) ∧ dumpFilter out = kept.flatten :=
  ⟨rfl, splitInclusive_flatten out, _, List.filter_sublist, rfl⟩

/-- The listing of `jle 0x2; nop`. -/
example : ∀ l ∈ ["   0:\t7e 00                \tjle    0x2".toList, "   2:\t90                   \tnop".toList],
    ListingLine l := by
  have key : ∀ l : List Char, l ≠ [] → '\n' ∉ l → strContains "file format binary".toList l = false
      → strContains "Disassembly of section".toList l = false → strContains "<.data>".toList l = false → ListingLine l := by
    intro l h1 h2 h3 h4 h5
    refine ⟨h1, h2, ?_, ?_, ?_⟩ <;> rw [← strContains_iff] <;> simp_all
  intro l hl
  simp only [List.mem_cons, List.not_mem_nil, or_false] at hl
  rcases hl with rfl | rfl <;> exact key _ (by decide) (by decide) (by decide) (by decide) (by decide)

end Monoasm
