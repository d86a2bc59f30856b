import Verif.Model.LibGroup
import Verif.Props.Groups
/-!
# Groups in the client library: C39, C105
-/
set_option autoImplicit false
namespace Dax
open Dax.LibGroup

/-! ## Lemmas -/

theorem size_le_groupBytes {hs : List Handle} {h : Handle} (hh : h ∈ hs) : h.size ≤ groupBytes hs := by
  unfold groupBytes
  induction hs with
  | nil => cases hh
  | cons x hs ih =>
    rw [List.map_cons, List.sum_cons]
    rcases List.mem_cons.1 hh with rfl | hh
    · omega
    · have := ih hh; omega

/-! ## C39, client -/

/-- **C39**, client: a request for a group is sent exactly when it has at most 150 members and at most 4084 bytes; it fits one message. -/
theorem C39_client (junk : List Byte) (hs : List Handle) (o : Byte) :
    ((∃ m, Wire.encode junk (.grpAdd hs o) = .ok (.ok m)) ↔ hs.length ≤ 150 ∧ groupBytes hs ≤ 4084) ∧ ∀ c d, Wire.encode junk (.grpAdd hs o) = .ok (.ok (c, d)) → d.length ≤ MSG_DATA_SIZE := by
  have hlen : ∀ l : List Handle, (l.flatMap Wire.handle21Of).length = 21 * l.length := by
    intro l
    induction l with
    | nil => rfl
    | cons x l ih =>
      rw [List.flatMap_cons, List.length_append, ih, List.length_cons]
      have : (Wire.handle21Of x).length = 21 := by simp [Wire.handle21Of, toLE_length, le4_length]
      omega
  unfold groupBytes
  simp only [Wire.encode]
  by_cases h1 : hs.length > 150
  · rw [if_pos h1]
    exact ⟨⟨fun ⟨m, h⟩ => (by cases h), fun h => (by omega)⟩, fun c d h => (by cases h)⟩
  · rw [if_neg h1]
    by_cases h2 : (hs.map (·.size)).sum > 4084
    · rw [if_pos h2]
      exact ⟨⟨fun ⟨m, h⟩ => (by cases h), fun h => (by omega)⟩, fun c d h => (by cases h)⟩
    · rw [if_neg h2]
      refine ⟨⟨fun _ => ⟨by omega, by omega⟩, fun _ => ⟨_, rfl⟩⟩, ?_⟩
      intro c d h
      injection h with h
      injection h with h
      injection h with _ h
      rw [← h, List.length_append, List.length_append, toLE_length, hlen]
      show 1 + 1 + 21 * hs.length ≤ MSG_DATA_SIZE
      have : (4086 : Nat) ≤ MSG_DATA_SIZE ∨ (3152 : Nat) ≤ MSG_DATA_SIZE := by decide
      omega

/-- **C39** for groups that come from the library: the server accepts exactly what the library sends, which are the groups of at most 150 members and 4084 bytes; the sum of the server cannot wrap for them. -/
theorem C39_library {fd : Int} {os : List Op} {s0 s : Server} {hs : List Handle} (hr : Reachable s0) (h0 : NoModule s0 fd) (ho : ∀ o ∈ os, o.keepsGroups fd) (h : run s0 os = .ok s) (hm : ∃ m, s.modByFd fd = some m)
    (hplace : ∃ i, i < 2048 ∧ ∀ hs', ¬ GroupAt s fd i hs') (junk : List Byte) (o : Byte) :
    (∃ m, Wire.encode junk (.grpAdd hs o) = .ok (.ok m)) → ∃ s' d, handle s fd (.grpAdd hs) = .ok (s', .resp d) := by
  intro hc
  have hl := (C39_client junk hs o).1.1 hc
  refine (C39_accept_partial hr h0 ho h hm hplace ?_).2 hl
  intro x hx
  have := size_le_groupBytes hx
  omega

/-! ## C105: groups and the memory of the caller -/

/-- **C105**, size: a group that was added has the sum of the sizes of its members, at most 4084 bytes. -/
theorem C105_size {junk : List Byte} {hs : List Handle} {count : Int} {o : Byte} {ans : LibGroup.Ans} {id : Id} (h : LibGroup.groupAdd junk hs count o ans = .ok (.ok id)) :
    id.handles = hs.take count.toNat ∧ id.handles.length = count ∧ id.size = groupBytes id.handles ∧ id.size ≤ 4084 := by
  unfold LibGroup.groupAdd at h
  by_cases h1 : count > 150
  · rw [if_pos h1] at h; cases h
  · rw [if_neg h1] at h
    by_cases h2 : count < 0 ∨ count > hs.length
    · rw [if_pos h2] at h; cases h
    · rw [if_neg h2] at h
      cases hm : Wire.encode junk (.grpAdd (hs.take count.toNat) o) with
      | ub y => rw [hm] at h; cases h
      | ok m =>
        rw [hm, C.ok_bind] at h
        cases m with
        | error e => cases h
        | ok m =>
          cases ans with
          | failed e => cases h
          | data d =>
            cases h
            have := ((C39_client junk (hs.take count.toNat) o).1.1 ⟨m, hm⟩).2
            refine ⟨rfl, ?_, rfl, this⟩
            show ((hs.take count.toNat).length : Int) = count
            rw [List.length_take]
            omega

/-- **C105**, reading: the data of the group are at the begin of the memory, what is behind them stays as it was.

Missing: memory and groups of less than four bytes (`C105_small`, `C105_behind`), refused requests (`C105_failed`). -/
theorem C105_read_partial {id : Id} {mem d : List Byte} {size : Nat} (hs : id.size ≤ size) (hm : size = mem.length) (hd : d.length = id.size) (h4 : 4 ≤ id.size) :
    ∃ mem', LibGroup.groupRead id mem size (.data d) = .ok (mem', 0) ∧ mem'.take id.size = d ∧ mem'.drop id.size = mem.drop id.size := by
  refine ⟨d ++ (toLE 4 id.index ++ mem.drop 4).drop d.length, ?_, ?_, ?_⟩
  · unfold LibGroup.groupRead
    rw [if_neg (by omega), if_neg (by omega)]
    dsimp only
    rw [if_neg (by omega)]
  · rw [← hd, List.take_left]
  · rw [← hd, List.drop_left, List.drop_append, toLE_length, List.drop_eq_nil_of_le (by rw [toLE_length]; omega), List.nil_append, List.drop_drop]
    congr 1
    omega

/-- **C105**: with too little memory nothing is sent and nothing is stored. -/
theorem C105_refused {id : Id} {mem : List Byte} {size : Nat} (hs : size < id.size) (ans : LibGroup.Ans) : LibGroup.groupRead id mem size ans = .ok (mem, ERR_ARG) := by
  unfold LibGroup.groupRead
  rw [if_pos hs]

/-- **C105** fails: a group of one to three bytes cannot be read into memory of its size: the number of the group is stored behind the end. -/
theorem C105_small {id : Id} {mem : List Byte} (hs : id.size = mem.length) (h4 : mem.length < 4) (ans : LibGroup.Ans) : ∃ y, LibGroup.groupRead id mem mem.length ans = .ub y := by
  refine ⟨"write outside block", ?_⟩
  unfold LibGroup.groupRead
  rw [if_neg (by omega), if_pos h4]

/-- **C105** fails: with more memory the bytes behind such a group are those of the number of the group. -/
theorem C105_behind {id : Id} {mem d : List Byte} (h4 : 4 ≤ mem.length) (hd : d.length = id.size) (h3 : id.size < 4) :
    ∃ mem', LibGroup.groupRead id mem mem.length (.data d) = .ok (mem', 0) ∧ (mem'.take 4).drop id.size = (toLE 4 id.index).drop id.size := by
  refine ⟨d ++ (toLE 4 id.index ++ mem.drop 4).drop d.length, ?_, ?_⟩
  · unfold LibGroup.groupRead
    rw [if_neg (by omega), if_neg (by omega)]
    dsimp only
    rw [if_neg (by omega)]
  · rw [List.drop_append_of_le_length (by rw [toLE_length]; omega), ← List.append_assoc, List.take_left' (by rw [List.length_append, List.length_drop, toLE_length]; omega), ← hd, List.drop_left]

/-- **C105** fails: a request that is refused changes the memory all the same. -/
theorem C105_failed {id : Id} {mem : List Byte} {size : Nat} (hs : id.size ≤ size) (h4 : 4 ≤ mem.length) (e : Int) : ∃ mem', LibGroup.groupRead id mem size (.failed e) = .ok (mem', e) ∧ mem'.take 4 = toLE 4 id.index := by
  refine ⟨toLE 4 id.index ++ mem.drop 4, ?_, List.take_left' (toLE_length _ _)⟩
  unfold LibGroup.groupRead
  rw [if_neg (by omega), if_neg (by omega)]

/-- **C105**, writing: exactly the data of the group are sent, for every group that was added. -/
theorem C105_write {junk junk' : List Byte} {hs : List Handle} {count : Int} {o : Byte} {ans : LibGroup.Ans} {id : Id} (h : LibGroup.groupAdd junk hs count o ans = .ok (.ok id)) {mem : List Byte} (hm : id.size ≤ mem.length) :
    LibGroup.groupWrite junk' id mem = .ok (.ok (0x15, toLE 4 id.index ++ mem.take id.size)) := by
  have hsz := (C105_size h).2.2.2
  unfold LibGroup.groupWrite
  rw [if_neg (by omega)]
  simp only [Wire.encode]
  rw [if_neg]
  rw [List.length_take]
  have : (4088 : Nat) ≤ MSG_DATA_SIZE := by decide
  omega

/-- **C105** fails: a negative count is not refused. -/
theorem C105_negative (junk : List Byte) (hs : List Handle) {count : Int} (hc : count < 0) (o : Byte) (ans : LibGroup.Ans) : ∃ y, LibGroup.groupAdd junk hs count o ans = .ub y := by
  refine ⟨"read outside block", ?_⟩
  unfold LibGroup.groupAdd
  rw [if_neg (by omega), if_pos (.inl hc)]

/-- Instance of the hypotheses: a group of two tags is added and read. -/
example : ∃ id, LibGroup.groupAdd [] [⟨3, 0, 0, 1, 4, DAX_DINT⟩, ⟨5, 0, 0, 1, 2, DAX_INT⟩] 2 0 (.data (toLE 4 7)) = .ok (.ok id) ∧ id.index = 7 ∧ id.size = 6 ∧
    LibGroup.groupRead id (List.replicate 7 9#8) 7 (.data [1, 2, 3, 4, 5, 6]) = .ok ([1, 2, 3, 4, 5, 6, 9], 0) :=
  ⟨_, rfl, rfl, rfl, rfl⟩

end Dax
