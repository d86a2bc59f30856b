import Verif.Model.PlcConf
import Verif.Props.Plctag
/-!
# Configuration of the tags of the controller: C100
-/
set_option autoImplicit false
namespace Dax
open Dax.Plc

theorem byteMap_some {f : Nat → Option Int} {elem : Int} : ∀ {k n : Nat} {m : List Nat}, byteMap f elem n k = some m → ((n + k : Nat) : Int) ≤ elem → m.length = k ∧ (∀ b ∈ m, (b : Int) < elem) ∧
    ∀ j, j < k → m[j]? = some (match f (n + j) with | none => (n + j) % 65536 | some v => (v % 65536).toNat) := by
  intro k
  induction k with
  | zero => intro n m h _; cases h; exact ⟨rfl, fun b hb => (by cases hb), fun j hj => absurd hj (by omega)⟩
  | succ k ih =>
    intro n m h hk
    unfold byteMap at h
    have fin : ∀ b : Nat, (b : Int) < elem → (b = match f n with | none => n % 65536 | some v => (v % 65536).toNat) → (byteMap f elem (n + 1) k).map (fun l => b :: l) = some m →
        m.length = k + 1 ∧ (∀ b ∈ m, (b : Int) < elem) ∧ ∀ j, j < k + 1 → m[j]? = some (match f (n + j) with | none => (n + j) % 65536 | some v => (v % 65536).toNat) := by
      intro b hb he hm
      cases hr : byteMap f elem (n + 1) k with
      | none => rw [hr] at hm; cases hm
      | some l =>
        rw [hr] at hm
        cases hm
        obtain ⟨h1, h2, h3⟩ := ih hr (by omega)
        refine ⟨by rw [List.length_cons, h1], List.forall_mem_cons.mpr ⟨hb, h2⟩, fun j hj => ?_⟩
        cases j with
        | zero => rw [List.getElem?_cons_zero, Nat.add_zero, he]
        | succ j => rw [List.getElem?_cons_succ, h3 j (by omega), show n + 1 + j = n + (j + 1) by omega]
    cases hf : f n with
    | none =>
      rw [hf] at h fin
      exact fin (n % 65536) (by omega) rfl h
    | some v =>
      rw [hf] at h fin
      dsimp only at h
      by_cases hb : (((v % 65536).toNat : Nat) : Int) ≥ elem
      · rw [if_pos hb] at h; cases h
      · rw [if_neg hb] at h
        exact fin (v % 65536).toNat (by omega) rfl h

/-- What an accepted argument leaves. -/
theorem addPlctag_some {l l' : List Def} {a : Arg} (h : addPlctag l a = .ok (some l')) : ∃ d, l' = d :: l ∧ a.daxtag = .text d.daxtag ∧ a.plctag = .text d.plctag ∧
    d.count = (if i32 a.count = 0 then 1 else i32 a.count) ∧ d.elem = (if i32 a.elem = 0 then -1 else i32 a.elem) ∧ d.readUpdate = i32 a.readUpdate ∧ d.writeUpdate = i32 a.writeUpdate ∧
    (a.map = none → d.map = none) ∧ ∀ f, a.map = some f → 0 < d.elem ∧ ∃ m, d.map = some m ∧ byteMap f d.elem 0 d.elem.toNat = some m := by
  have he : (if i32 a.elem = 0 then -1 else i32 a.elem) ≠ 0 := by
    by_cases h0 : i32 a.elem = 0
    · rw [if_pos h0]; decide
    · rw [if_neg h0]; exact h0
  unfold addPlctag at h
  dsimp only at h
  generalize (if i32 a.count = 0 then 1 else i32 a.count) = cnt at h ⊢
  generalize (if i32 a.elem = 0 then -1 else i32 a.elem) = el at h ⊢ he
  by_cases hn : a.daxtag = .nil ∨ a.plctag = .nil
  · rw [if_pos hn] at h; cases h
  · rw [if_neg hn] at h
    cases hm : a.map with
    | none =>
      rw [hm] at h
      dsimp only at h
      split at h
      · rename_i d p hd hp
        cases h
        exact ⟨_, rfl, hd, hp, rfl, rfl, rfl, rfl, fun _ => rfl, fun f hf => by cases hf⟩
      · cases h
    | some f =>
      rw [hm] at h
      dsimp only at h
      by_cases hneg : el < 0
      · rw [if_pos hneg] at h; cases h
      · rw [if_neg hneg] at h
        cases hl : byteMap f el 0 el.toNat with
        | none => rw [hl] at h; cases h
        | some m =>
          rw [hl] at h
          dsimp only at h
          split at h
          · rename_i d p hd hp
            cases h
            refine ⟨_, rfl, hd, hp, rfl, rfl, rfl, rfl, fun hc => (by cases hc), fun f' hf => ?_⟩
            cases hf
            exact ⟨by show 0 < el; omega, m, rfl, hl⟩
          · cases h

/-- **C100**: an argument that is accepted adds one tag in front of the others, with the names, the numbers and the map that were written, 1 for a count that is missing. -/
theorem C100_kept_partial {l l' : List Def} {a : Arg} (h : addPlctag l a = .ok (some l')) (hc : -2147483648 ≤ a.count ∧ a.count ≤ 2147483647) (he : 0 < a.elem ∧ a.elem ≤ 65536)
    (hr : -2147483648 ≤ a.readUpdate ∧ a.readUpdate ≤ 2147483647) (hw : -2147483648 ≤ a.writeUpdate ∧ a.writeUpdate ≤ 2147483647) :
    ∃ d, l' = d :: l ∧ a.daxtag = .text d.daxtag ∧ a.plctag = .text d.plctag ∧ (a.count ≠ 0 → d.count = a.count) ∧ (a.count = 0 → d.count = 1) ∧ d.elem = a.elem ∧
      d.readUpdate = a.readUpdate ∧ d.writeUpdate = a.writeUpdate ∧ (a.map = none → d.map = none) ∧
      ∀ f, a.map = some f → (∀ n v, f n = some v → 0 ≤ v ∧ v < 65536) → ∃ m, d.map = some m ∧ (m.length : Int) = a.elem ∧ (∀ k ∈ m, (k : Int) < a.elem) ∧
        ∀ n : Nat, (n : Int) < a.elem → ∃ k : Nat, m[n]? = some k ∧ (k : Int) = (f n).getD n := by
  have wrap : ∀ x : Int, -2147483648 ≤ x → x ≤ 2147483647 → i32 x = x := by intro x h1 h2; unfold i32; omega
  obtain ⟨d, h1, h2, h3, h4, h5, h6, h7, h8, h9⟩ := addPlctag_some h
  rw [wrap _ hc.1 hc.2] at h4
  rw [wrap _ (by omega) (by omega), if_neg (by omega)] at h5
  rw [wrap _ hr.1 hr.2] at h6
  rw [wrap _ hw.1 hw.2] at h7
  refine ⟨d, h1, h2, h3, fun hn => by rw [h4, if_neg hn], fun hz => by rw [h4, if_pos hz], h5, h6, h7, h8, fun f hf hv => ?_⟩
  obtain ⟨-, m, hm, hl⟩ := h9 f hf
  rw [h5] at hl
  obtain ⟨g1, g2, g3⟩ := byteMap_some hl (by omega)
  refine ⟨m, hm, by omega, g2, fun n hn => ⟨_, g3 n (by omega), ?_⟩⟩
  rw [Nat.zero_add]
  cases hfn : f n with
  | none => show ((n % 65536 : Nat) : Int) = n; omega
  | some v =>
    obtain ⟨v0, v1⟩ := hv n v hfn
    show (((v % 65536).toNat : Nat) : Int) = v
    omega

/-- **C100**: a place of the map that names a byte outside of the element is refused, as long as it is a number of 16 bits. -/
theorem C100_refused_partial {l : List Def} {a : Arg} {f : Nat → Option Int} (he : 0 < a.elem ∧ a.elem ≤ 65536) (hf : a.map = some f) {n : Nat} {v : Int} (hn : (n : Int) < a.elem) (hv : f n = some v)
    (h1 : a.elem ≤ v) (h2 : v < 65536) : addPlctag l a = .ok none := by
  have hel : i32 a.elem = a.elem := by unfold i32; omega
  have hl : byteMap f a.elem 0 a.elem.toNat = none := by
    cases hm : byteMap f a.elem 0 a.elem.toNat with
    | none => rfl
    | some m =>
      obtain ⟨g1, g2, g3⟩ := byteMap_some hm (by omega)
      have := g3 n (by omega)
      rw [Nat.zero_add, hv] at this
      have hmem : (((v % 65536).toNat : Nat) : Int) < a.elem := g2 _ (List.mem_of_getElem? this)
      omega
  unfold addPlctag
  dsimp only
  by_cases hn : a.daxtag = .nil ∨ a.plctag = .nil
  · rw [if_pos hn]
  · rw [if_neg hn, hf, hel]
    dsimp only
    rw [if_neg (show ¬ a.elem = 0 by omega), if_neg (show ¬ a.elem < 0 by omega), hl]

/-- **C100**, use of the map: whatever argument was accepted, reading of a compound type never leaves the memory, if the buffers have the size of the elements. -/
theorem C100_safe {L : Lib} {l l' : List Def} {d : Def} {a : Arg} (h : addPlctag l a = .ok (some l')) (hd : l'.head? = some d) {g : Conf} (hmap : (a.map).isSome) (hg : g.map = d.map) (he : g.elem = d.elem)
    (ht : DAX_CUSTOM ≤ g.type) {mem buff : List Byte} (hb : buff.length = g.count * d.elem.toNat) (hp : g.count * d.elem.toNat ≤ mem.length) :
    ∃ r, readTag L g mem buff = .ok r ∧ r.length = buff.length := by
  obtain ⟨d', h1, h2, h3, h4, h5, h6, h7, h8, h9⟩ := addPlctag_some h
  rw [h1] at hd
  cases hd
  obtain ⟨f, hf⟩ := Option.isSome_iff_exists.mp hmap
  obtain ⟨h0, m, hm, hl⟩ := h9 f hf
  obtain ⟨g1, g2, -⟩ := byteMap_some hl (by omega)
  obtain ⟨r, r1, r2, -⟩ := C83_map_read (L := L) (mem := mem) (es := d.elem.toNat) ht (by rw [he]; omega) (by omega) (hg.trans hm) g1 (fun k hk => by have := g2 k hk; omega) hb hp
  exact ⟨r, r1, r2⟩

/-- **C100** fails: 65536 is taken for byte 0. -/
theorem C100_truncated (l : List Def) : addPlctag l { daxtag := .text (nm "a"), plctag := .text (nm "b"), elem := 2, map := some fun n => if n = 0 then some 65536 else none } =
    .ok (some ({ daxtag := nm "a", plctag := nm "b", count := 1, elem := 2, map := some [0, 1], readUpdate := 0, writeUpdate := 0 } :: l)) := rfl

/-- **C100** fails: two places that name the same byte are accepted (what is written then: `C83_map_twice`), and so is a negative count. -/
theorem C100_twice (l : List Def) : addPlctag l { daxtag := .text (nm "a"), plctag := .text (nm "b"), count := -3, elem := 2, map := some fun _ => some 0 } =
    .ok (some ({ daxtag := nm "a", plctag := nm "b", count := -3, elem := 2, map := some [0, 0], readUpdate := 0, writeUpdate := 0 } :: l)) := rfl

/-- **C100** fails: a name that is neither text nor number. -/
theorem C100_name (l : List Def) (p : Field) (hp : p ≠ .nil) : ∃ y, addPlctag l { daxtag := .other, plctag := p } = .ub y := by
  refine ⟨"strdup(NULL)", ?_⟩
  unfold addPlctag
  dsimp only
  rw [if_neg (fun hc => hc.elim (fun h => by cases h) hp)]

/-- Instance of the hypotheses: two words swapped. -/
example : addPlctag [] { daxtag := .text (nm "a"), plctag := .text (nm "b"), count := 3, elem := 4, map := some fun n => [some 2, some 3, some 0, none].getD n none } =
    .ok (some [{ daxtag := nm "a", plctag := nm "b", count := 3, elem := 4, map := some [2, 3, 0, 3], readUpdate := 0, writeUpdate := 0 }]) := rfl

end Dax
