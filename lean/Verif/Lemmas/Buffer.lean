import Verif.Spec.Buffer
import Verif.Lemmas.LibRecv
/-!
# Lemmas for the server's message buffers
-/
set_option autoImplicit false
namespace Dax.Buff
open LibEv (Msg be4)
open LibRecv (be32 be4_be32 be32_length wr_piece)

theorem request_length (m : Msg) : (request m).length = 8 + m.data.length := by
  simp only [request, be32_length, List.length_append]

/-- The nodes hold exactly what arrived of the incomplete requests. -/
structure Inv (part : Int → List Byte) (s : State) : Prop where
  ne : s.nodes ≠ []
  min : 0 < s.min
  junk : ∀ k, (s.junk k).length = 4096
  len : ∀ (i : Nat) (n : Node), s.nodes[i]? = some n → n.buf.length = 4096
  free : ∀ (i : Nat) (n : Node), s.nodes[i]? = some n → n.fd = 0 → n.index = 0
  used : ∀ (i : Nat) (n : Node), s.nodes[i]? = some n → n.fd ≠ 0 →
    part n.fd ≠ [] ∧ n.index = ((part n.fd).length : Int) ∧ n.buf.take (part n.fd).length = part n.fd
  uniq : ∀ (i j : Nat) (n m : Node), s.nodes[i]? = some n → s.nodes[j]? = some m → n.fd = m.fd → n.fd ≠ 0 → i = j
  has : ∀ fd, fd ≠ 0 → part fd ≠ [] → ∃ (i : Nat) (n : Node), s.nodes[i]? = some n ∧ n.fd = fd

/-- `part` with another value for one client. -/
def put (part : Int → List Byte) (fd : Int) (d : List Byte) : Int → List Byte :=
  fun f => if f = fd then d else part f

theorem findIdx_some {ns : List Node} {p : Node → Bool} {i : Nat} (h : ns.findIdx? p = some i) :
    ∃ n, ns[i]? = some n ∧ p n = true := by
  rw [List.findIdx?_eq_some_iff_getElem] at h
  obtain ⟨hi, hp, -⟩ := h
  exact ⟨ns[i], List.getElem?_eq_getElem hi, hp⟩

theorem findIdx_none {ns : List Node} {p : Node → Bool} (h : ns.findIdx? p = none) {i : Nat} {n : Node}
    (hn : ns[i]? = some n) : p n = false := by
  rw [List.findIdx?_eq_none_iff] at h
  exact h n (List.mem_of_getElem? hn)

/-- The node found for a client, and the other nodes. -/
structure Slotted (part : Int → List Byte) (fd : Int) (i : Nat) (s s' : State) (n : Node) : Prop where
  at_ : s'.nodes[i]? = some n
  fd_ : n.fd = fd
  len : n.buf.length = 4096
  index : n.index = ((part fd).length : Int)
  buf : n.buf.take (part fd).length = part fd
  only : ∀ (j : Nat) (m : Node), s'.nodes[j]? = some m → m.fd = fd → j = i
  rest : ∀ (j : Nat) (m : Node), s'.nodes[j]? = some m → j ≠ i → ∃ k : Nat, s.nodes[k]? = some m ∧ m.fd ≠ fd
  sub : ∀ (j : Nat) (m : Node), s.nodes[j]? = some m → m.fd ≠ 0 → m.fd ≠ fd → s'.nodes[j]? = some m ∧ j ≠ i
  inj : ∀ (j k : Nat) (m m' : Node), s'.nodes[j]? = some m → s'.nodes[k]? = some m' → m.fd = m'.fd → m.fd ≠ 0 → j = k
  min : s'.min = s.min
  junk : ∀ k, (s'.junk k).length = 4096

theorem slot_ok {part : Int → List Byte} {s : State} {fd : Int} (h : Inv part s) (hfd : fd ≠ 0) :
    ∃ (i : Nat) (s' : State) (n : Node), slot s fd = .ok (i, s') ∧ Slotted part fd i s s' n := by
  unfold slot
  split
  · rename_i i hi
    obtain ⟨n, hn, hp⟩ := findIdx_some hi
    have hp : n.fd = fd := by simpa using hp
    subst hp
    obtain ⟨hne, hix, hb⟩ := h.used i n hn hfd
    refine ⟨i, s, n, rfl, hn, rfl, h.len i n hn, hix, hb, ?_, ?_, ?_, h.uniq, rfl, h.junk⟩
    · intro j m hm he; exact h.uniq j i m n hm hn he (by rw [he]; exact hfd)
    · intro j m hm hj
      exact ⟨j, hm, fun he => hj (h.uniq j i m n hm hn he (by rw [he]; exact hfd))⟩
    · intro j m hm _ h2
      exact ⟨hm, fun e => h2 (by subst e; rw [hn] at hm; cases hm; rfl)⟩
  · rename_i hno
    have hno' : ∀ (j : Nat) (m : Node), s.nodes[j]? = some m → m.fd ≠ fd := by
      intro j m hm; simpa using findIdx_none hno hm
    have hpart : part fd = [] := by
      apply Classical.byContradiction
      intro hc
      obtain ⟨i, n, hn, he⟩ := h.has fd hfd hc
      exact hno' i n hn he
    split
    · rename_i i hi
      obtain ⟨n, hn, hp⟩ := findIdx_some hi
      have hp : n.fd = 0 := by simpa using hp
      have get : ∀ (j : Nat) (m : Node), (s.nodes.modify i (fun n => { n with fd := fd }))[j]? = some m →
          (j = i ∧ m = { n with fd := fd }) ∨ (j ≠ i ∧ s.nodes[j]? = some m) := by
        intro j m hm
        rw [List.getElem?_modify] at hm
        by_cases hj : i = j
        · subst hj
          left
          simp only [hn, if_pos] at hm
          cases hm; exact ⟨rfl, rfl⟩
        · right
          simp only [if_neg hj, id, Option.map_id'] at hm
          cases hx : s.nodes[j]? with
          | none => rw [hx] at hm; cases hm
          | some y => rw [hx] at hm; exact ⟨fun e => hj e.symm, hm⟩
      refine ⟨i, _, { n with fd := fd }, rfl, ?_, rfl, h.len i n hn, ?_, ?_, ?_, ?_, ?_, ?_, rfl, h.junk⟩
      · simp [List.getElem?_modify, hn]
      · rw [hpart]; exact h.free i n hn hp
      · rw [hpart]; rfl
      · intro j m hm he
        rcases get j m hm with ⟨rfl, -⟩ | ⟨-, hm⟩
        · rfl
        · exact absurd he (hno' j m hm)
      · intro j m hm hj
        rcases get j m hm with ⟨rfl, -⟩ | ⟨-, hm⟩
        · exact absurd rfl hj
        · exact ⟨j, hm, hno' j m hm⟩
      · intro j m hm h0 h1
        have hj : i ≠ j := by rintro rfl; rw [hn] at hm; cases hm; exact h0 hp
        refine ⟨?_, fun e => hj e.symm⟩
        simp [List.getElem?_modify, hj, hm]
      · intro j k m m' hm hm' he h0
        rcases get j m hm with ⟨rfl, rfl⟩ | ⟨hj, hmj⟩ <;> rcases get k m' hm' with ⟨rfl, rfl⟩ | ⟨hk, hm'⟩
        · rfl
        · exact absurd he.symm (hno' k m' hm')
        · exact absurd he (hno' j m hmj)
        · exact h.uniq j k m m' hmj hm' he h0
    · rename_i hno2
      rw [if_neg h.ne]
      have get : ∀ (j : Nat) (m : Node), (s.nodes ++ [{ fresh (s.junk 0) with fd := fd }])[j]? = some m →
          (j = s.nodes.length ∧ m = { fresh (s.junk 0) with fd := fd }) ∨ s.nodes[j]? = some m := by
        intro j m hm
        rw [List.getElem?_append] at hm
        split at hm
        · exact .inr hm
        · left
          have : j - s.nodes.length = 0 := by
            cases hx : j - s.nodes.length with
            | zero => rfl
            | succ y => rw [hx] at hm; simp at hm
          rw [this] at hm
          simp only [List.getElem?_cons_zero, Option.some.injEq] at hm
          exact ⟨by omega, hm.symm⟩
      have lt : ∀ (j : Nat) (m : Node), s.nodes[j]? = some m → j < s.nodes.length := fun j m hm => (List.getElem?_eq_some_iff.mp hm).1
      refine ⟨_, _, { fresh (s.junk 0) with fd := fd }, rfl, ?_, rfl, h.junk 0, ?_, ?_, ?_, ?_, ?_, ?_, rfl,
        fun k => h.junk _⟩
      · simp
      · rw [hpart]; rfl
      · rw [hpart]; rfl
      · intro j m hm he
        rcases get j m hm with ⟨rfl, -⟩ | hm
        · rfl
        · exact absurd he (hno' j m hm)
      · intro j m hm hj
        rcases get j m hm with ⟨rfl, -⟩ | hm
        · exact absurd rfl hj
        · exact ⟨j, hm, hno' j m hm⟩
      · intro j m hm h0 h1
        have := lt j m hm
        exact ⟨by rw [List.getElem?_append_left this]; exact hm, by omega⟩
      · intro j k m m' hm hm' he h0
        rcases get j m hm with ⟨rfl, rfl⟩ | hm <;> rcases get k m' hm' with ⟨rfl, rfl⟩ | hm'
        · rfl
        · exact absurd he.symm (hno' k m' hm')
        · exact absurd he (hno' j m hm)
        · exact h.uniq j k m m' hm hm' he h0

/-- Storing the new contents of a client's node. -/
theorem Slotted.set {part : Int → List Byte} {fd : Int} {i : Nat} {s s' : State} {n n' : Node} (h : Inv part s)
    (hs : Slotted part fd i s s' n) (hfd : fd ≠ 0) {p : List Byte} (hn : n'.fd = fd) (hl : n'.buf.length = 4096)
    (hp : p ≠ []) (hi : n'.index = (p.length : Int)) (hb : n'.buf.take p.length = p) :
    Inv (put part fd p) { s' with nodes := s'.nodes.set i n' } := by
  have hlt : i < s'.nodes.length := (List.getElem?_eq_some_iff.mp hs.at_).1
  have get : ∀ (j : Nat) (m : Node), (s'.nodes.set i n')[j]? = some m → (j = i ∧ m = n') ∨ (j ≠ i ∧ s'.nodes[j]? = some m) := by
    intro j m hm
    by_cases hj : i = j
    · subst hj
      rw [List.getElem?_set_self hlt] at hm
      cases hm; exact .inl ⟨rfl, rfl⟩
    · rw [List.getElem?_set_ne hj] at hm
      exact .inr ⟨fun e => hj e.symm, hm⟩
  refine ⟨?_, by show 0 < s'.min; rw [hs.min]; exact h.min, hs.junk, ?_, ?_, ?_, ?_, ?_⟩
  · intro he
    have := congrArg List.length he
    simp at this
    rw [this] at hlt; simp at hlt
  · intro j m hm
    rcases get j m hm with ⟨rfl, rfl⟩ | ⟨hj, hm⟩
    · exact hl
    · obtain ⟨k, hk, -⟩ := hs.rest j m hm hj
      exact h.len k m hk
  · intro j m hm h0
    rcases get j m hm with ⟨rfl, rfl⟩ | ⟨hj, hm⟩
    · exact absurd (hn ▸ h0) hfd
    · obtain ⟨k, hk, -⟩ := hs.rest j m hm hj
      exact h.free k m hk h0
  · intro j m hm h0
    rcases get j m hm with ⟨rfl, rfl⟩ | ⟨hj, hm⟩
    · simp only [put, hn, if_pos]
      exact ⟨hp, hi, hb⟩
    · obtain ⟨k, hk, hne⟩ := hs.rest j m hm hj
      simp only [put, if_neg hne]
      exact h.used k m hk h0
  · intro j k m m' hm hm' he h0
    rcases get j m hm with ⟨rfl, rfl⟩ | ⟨hj, hmj⟩ <;> rcases get k m' hm' with ⟨rfl, rfl⟩ | ⟨hk, hm'⟩
    · rfl
    · exact absurd (hs.only k m' hm' (by rw [← he, hn])) hk
    · exact absurd (hs.only j m hmj (by rw [he, hn])) hj
    · exact hs.inj j k m m' hmj hm' he h0
  · intro f hf hpf
    by_cases he : f = fd
    · subst he
      exact ⟨i, n', by rw [List.getElem?_set_self hlt], hn⟩
    · simp only [put, if_neg he] at hpf
      obtain ⟨j, m, hm, rfl⟩ := h.has f hf hpf
      obtain ⟨hm2, hj⟩ := hs.sub j m hm hf he
      exact ⟨j, m, by rw [List.getElem?_set_ne (fun e => hj e.symm)]; exact hm2, rfl⟩

/-- `buff_free` of a client whose node is there (or not). -/
theorem free_ok {part : Int → List Byte} {s : State} {fd : Int} (h : Inv part s) (hfd : fd ≠ 0) :
    Inv (put part fd []) (free s fd) := by
  unfold free
  split
  · rename_i i hi
    obtain ⟨n, hn, hp⟩ := findIdx_some hi
    have hp : n.fd = fd := by simpa using hp
    have hlt : i < s.nodes.length := (List.getElem?_eq_some_iff.mp hn).1
    have get : ∀ (j : Nat) (m : Node), (s.nodes.modify i (fun n => { n with fd := 0, index := 0 }))[j]? = some m →
        (j = i ∧ m = { n with fd := 0, index := 0 }) ∨ (j ≠ i ∧ s.nodes[j]? = some m) := by
      intro j m hm
      rw [List.getElem?_modify] at hm
      by_cases hj : i = j
      · subst hj
        left
        simp only [hn, if_pos] at hm
        cases hm; exact ⟨rfl, rfl⟩
      · right
        simp only [if_neg hj, id, Option.map_id'] at hm
        cases hx : s.nodes[j]? with
        | none => rw [hx] at hm; cases hm
        | some y => rw [hx] at hm; exact ⟨fun e => hj e.symm, hm⟩
    refine ⟨?_, h.min, h.junk, ?_, ?_, ?_, ?_, ?_⟩
    · intro he
      have := congrArg List.length he
      simp at this
      rw [this] at hlt; simp at hlt
    · intro j m hm
      rcases get j m hm with ⟨rfl, rfl⟩ | ⟨hj, hm⟩
      · exact h.len _ n hn
      · exact h.len j m hm
    · intro j m hm h0
      rcases get j m hm with ⟨rfl, rfl⟩ | ⟨hj, hm⟩
      · rfl
      · exact h.free j m hm h0
    · intro j m hm h0
      rcases get j m hm with ⟨rfl, rfl⟩ | ⟨hj, hm⟩
      · exact absurd rfl h0
      · have hne : m.fd ≠ fd := fun e => hj (h.uniq j i m n hm hn (by rw [e, hp]) h0)
        simp only [put, if_neg hne]
        exact h.used j m hm h0
    · intro j k m m' hm hm' he h0
      rcases get j m hm with ⟨rfl, rfl⟩ | ⟨hj, hmj⟩ <;> rcases get k m' hm' with ⟨rfl, rfl⟩ | ⟨hk, hm'⟩
      · rfl
      · exact absurd rfl h0
      · exact absurd he h0
      · exact h.uniq j k m m' hmj hm' he h0
    · intro f hf hpf
      by_cases he : f = fd
      · subst he; simp [put] at hpf
      · simp only [put, if_neg he] at hpf
        obtain ⟨j, m, hm, rfl⟩ := h.has f hf hpf
        have hj : i ≠ j := by rintro rfl; rw [hn] at hm; cases hm; exact he hp
        exact ⟨j, m, by simp [List.getElem?_modify, hj, hm], rfl⟩
  · rename_i hno
    have hno' : ∀ (j : Nat) (m : Node), s.nodes[j]? = some m → m.fd ≠ fd := by
      intro j m hm; simpa using findIdx_none hno hm
    refine ⟨h.ne, h.min, h.junk, h.len, h.free, ?_, h.uniq, ?_⟩
    · intro j m hm h0
      simp only [put, if_neg (hno' j m hm)]
      exact h.used j m hm h0
    · intro f hf hpf
      by_cases he : f = fd
      · subst he; simp [put] at hpf
      · simp only [put, if_neg he] at hpf
        exact h.has f hf hpf

theorem freeAll_ok {part : Int → List Byte} {s : State} (h : Inv part s) (hp : ∀ fd, fd ≠ 0 → part fd = []) :
    Inv part (freeAll s) := by
  have main : ∀ ns : List Node, ns ≠ [] → (∀ n ∈ ns, n.fd = 0 ∧ n.index = 0 ∧ n.buf.length = 4096) →
      Inv part { s with nodes := ns } := by
    intro ns hne hns
    have hns' : ∀ (i : Nat) (n : Node), ns[i]? = some n → n.fd = 0 ∧ n.index = 0 ∧ n.buf.length = 4096 :=
      fun i n hn => hns n (List.mem_of_getElem? hn)
    refine ⟨hne, h.min, h.junk, fun i n hn => (hns' i n hn).2.2, fun i n hn _ => (hns' i n hn).2.1, ?_, ?_, ?_⟩
    · intro i n hn h0; exact absurd (hns' i n hn).1 h0
    · intro i j n m hn _ _ h0; exact absurd (hns' i n hn).1 h0
    · intro fd hfd hx; exact absurd (hp fd hfd) hx
  have hmap : ∀ n ∈ s.nodes.map (fun n => { n with fd := 0, index := 0 }), n.fd = 0 ∧ n.index = 0 ∧ n.buf.length = 4096 := by
    intro n hn
    obtain ⟨m, hm, rfl⟩ := List.mem_map.mp hn
    obtain ⟨i, hi⟩ := List.mem_iff_getElem?.mp hm
    exact ⟨rfl, rfl, h.len i m hi⟩
  unfold freeAll
  dsimp only
  split
  · rename_i hc
    apply main
    · intro he
      have := congrArg List.length he
      simp only [List.length_dropLast, List.length_nil] at this
      omega
    · intro n hn; exact hmap n (List.dropLast_subset _ hn)
  · apply main
    · simpa using h.ne
    · exact hmap

theorem init_ok {min : Int} {junk : Nat → List Byte} (hm : 0 < min) (hj : ∀ k, (junk k).length = 4096) :
    Inv (fun _ => []) (init min junk) := by
  have hall : ∀ (i : Nat) (n : Node), (init min junk).nodes[i]? = some n → n.fd = 0 ∧ n.index = 0 ∧ n.buf.length = 4096 := by
    intro i n hn
    have := List.mem_of_getElem? hn
    simp only [init, List.mem_map] at this
    obtain ⟨k, -, rfl⟩ := this
    exact ⟨rfl, rfl, hj k⟩
  refine ⟨?_, hm, fun k => hj _, fun i n hn => (hall i n hn).2.2, fun i n hn _ => (hall i n hn).2.1, ?_, ?_, ?_⟩
  · intro he
    have := congrArg List.length he
    simp [init] at this
    omega
  · intro i n hn h0; exact absurd (hall i n hn).1 h0
  · intro i j n m hn _ _ h0; exact absurd (hall i n hn).1 h0
  · intro fd _ hx; exact absurd rfl hx

theorem u32_nat {n : Nat} (h : n < 4294967296) : u32 (n : Int) = n := by
  unfold u32; omega

theorem put_put (part : Int → List Byte) (fd : Int) (a b : List Byte) : put (put part fd a) fd b = put part fd b := by
  funext f; unfold put; split <;> rfl

/-- The size field, once four bytes are there. -/
theorem be4_size {b p : List Byte} {m : Msg} (hf : Fits m) (hb : b.take p.length = p) (hp : p <+: request m)
    (h4 : 4 ≤ p.length) : be4 (b.take 4) = m.data.length + 8 := by
  have h1 : b.take 4 = p.take 4 := by
    have := congrArg (List.take 4) hb
    rw [List.take_take, Nat.min_eq_left h4] at this
    exact this
  obtain ⟨r, hr⟩ := hp
  have h2 : p.take 4 = be32 (m.data.length + 8) := by
    have h3 : (p ++ r).take 4 = p.take 4 := List.take_append_of_le_length h4
    rw [← h3, hr, request, List.append_assoc, List.take_append_of_le_length (by rw [be32_length]; omega)]
    exact List.take_of_length_le (by rw [be32_length]; omega)
  rw [h1, h2]
  have := hf.2.2
  exact be4_be32 (by omega)

theorem be4_type {b : List Byte} {m : Msg} (hf : Fits m) (hb : b.take (request m).length = request m) :
    be4 ((b.drop 4).take 4) = m.type ∧ rd b 8 m.data.length = .ok m.data := by
  have hl := request_length m
  have hb' : b = request m ++ b.drop (request m).length := by
    conv => lhs; rw [← List.take_append_drop (request m).length b, hb]
  constructor
  · have : (b.drop 4).take 4 = be32 m.type := by
      rw [hb']
      simp only [request, List.append_assoc]
      rw [List.drop_left' (by rfl), List.take_left' (by rfl)]
    rw [this]
    have := hf.2.1
    exact be4_be32 (by omega)
  · have hlen : 8 + m.data.length ≤ b.length := by
      have := congrArg List.length hb
      rw [List.length_take] at this; omega
    unfold rd
    rw [if_pos (by omega)]
    congr 1
    rw [hb']
    simp only [request, ← List.append_assoc]
    have : ((8 : Int)).toNat = 8 := rfl
    rw [this, List.append_assoc, List.drop_left' (by rfl)]
    exact List.take_left' rfl

/-- A piece arrives: either it completes the request or the server waits. -/
theorem ready_more {part : Int → List Byte} {s : State} {fd : Int} {d : List Byte} {m : Msg} (h : Inv part s)
    (hfd : fd ≠ 0) (hf : Fits m) (hd : d ≠ []) (hp : part fd ++ d <+: request m) (h4 : 4 ≤ (part fd ++ d).length)
    (h1 : (part fd ++ d).length + 1 < (request m).length) :
    ∃ s', step s (.ready fd d) = .ok (s', []) ∧ Inv (put part fd (part fd ++ d)) s' := by
  obtain ⟨i, s1, n, hs, hsl⟩ := slot_ok h hfd
  have hle := hp.length_le
  have hrl := request_length m
  have hfl := hf.2.2
  rw [List.length_append] at hle h1 h4
  have hw : ∃ b, wr n.buf n.index d = .ok b ∧ b.length = 4096 ∧ b.take (part fd ++ d).length = part fd ++ d := by
    obtain ⟨b, hb, hl, ht⟩ := wr_piece (buff := n.buf) (a := part fd ++ d) (i := (part fd).length) (k := d.length)
      (by rw [hsl.len, List.length_append]; omega) (by rw [hsl.buf]; simp) (by simp)
    refine ⟨b, ?_, by rw [hl, hsl.len], ?_⟩
    · have e : ((part fd ++ d).drop (part fd).length).take d.length = d := by simp
      rw [e] at hb; rw [hsl.index]; exact hb
    · rw [List.length_append, ht]; rw [← List.length_append, List.take_length]
  obtain ⟨b, hb, hbl, hbt⟩ := hw
  refine ⟨_, ?_, hsl.set h hfd (n' := { n with index := n.index + d.length, buf := b }) hsl.fd_ hbl
    (by simp [hd]) (by rw [hsl.index, List.length_append]; push_cast; rfl) hbt⟩
  unfold step
  dsimp only
  rw [hs]
  simp only [C.ok_bind, hsl.at_, hb]
  rw [if_neg (by rw [hsl.index]; omega), if_neg (by rw [hsl.index]; omega), if_neg hd]
  unfold examine
  rw [if_pos]
  dsimp only
  rw [be4_size hf hbt hp (by rw [List.length_append]; omega), hsl.index]
  unfold u32
  omega

theorem ready_last {part : Int → List Byte} {s : State} {fd : Int} {d : List Byte} {m : Msg} (h : Inv part s)
    (hfd : fd ≠ 0) (hf : Fits m) (hd : d ≠ []) (hp : part fd ++ d = request m) :
    ∃ s', step s (.ready fd d) = .ok (s', [.msg fd m]) ∧ Inv (put part fd []) s' := by
  obtain ⟨i, s1, n, hs, hsl⟩ := slot_ok h hfd
  have hrl := request_length m
  have hfl := hf.2.2
  have hlen : (part fd).length + d.length = 8 + m.data.length := by rw [← List.length_append, hp, hrl]
  have hw : ∃ b, wr n.buf n.index d = .ok b ∧ b.length = 4096 ∧ b.take (part fd ++ d).length = part fd ++ d := by
    obtain ⟨b, hb, hl, ht⟩ := wr_piece (buff := n.buf) (a := part fd ++ d) (i := (part fd).length) (k := d.length)
      (by rw [hsl.len, List.length_append]; omega) (by rw [hsl.buf]; simp) (by simp)
    refine ⟨b, ?_, by rw [hl, hsl.len], ?_⟩
    · have e : ((part fd ++ d).drop (part fd).length).take d.length = d := by simp
      rw [e] at hb; rw [hsl.index]; exact hb
    · rw [List.length_append, ht]; rw [← List.length_append, List.take_length]
  obtain ⟨b, hb, hbl, hbt⟩ := hw
  have hinv := hsl.set h hfd (n' := { n with index := n.index + d.length, buf := b }) (p := part fd ++ d) hsl.fd_ hbl
    (by simp [hd]) (by rw [hsl.index, List.length_append]; push_cast; rfl) hbt
  have hfree := free_ok hinv hfd
  rw [put_put] at hfree
  refine ⟨_, ?_, hfree⟩
  unfold step
  dsimp only
  rw [hs]
  simp only [C.ok_bind, hsl.at_, hb]
  rw [if_neg (by rw [hsl.index]; omega), if_neg (by rw [hsl.index]; omega), if_neg hd]
  unfold examine
  have hsz : be4 (b.take 4) = m.data.length + 8 :=
    be4_size hf hbt (hp ▸ List.prefix_refl _) (by rw [List.length_append]; omega)
  rw [hp] at hbt
  obtain ⟨hty, hrd⟩ := be4_type hf hbt
  rw [if_neg (by dsimp only; rw [hsz, hsl.index]; unfold u32; omega)]
  have h8 : u32 ((m.data.length + 8 : Nat) - 8 : Int) = m.data.length := by unfold u32; omega
  unfold dispatcher
  simp only [hsz, hty, h8, hrd]
  have h1 := hf.1
  have h2 := hf.2.1
  rw [if_neg (by omega), if_neg (by omega)]
  rfl

theorem ready_close {part : Int → List Byte} {s : State} {fd : Int} (h : Inv part s) (hfd : fd ≠ 0)
    (hl : (part fd).length ≤ 4096) :
    ∃ s', step s (.ready fd []) = .ok (s', [.gone fd]) ∧ Inv (put part fd []) s' := by
  obtain ⟨i, s1, n, hs, hsl⟩ := slot_ok h hfd
  -- the slot may have been taken just now, with nothing in it: it is freed again
  have hfree : Inv (put part fd []) (free s1 fd) := by
    by_cases hp : part fd = []
    · have hset := hsl.set h hfd (n' := { n with index := 1 }) (p := n.buf.take 1) hsl.fd_ hsl.len
        (by intro e; have := congrArg List.length e; rw [List.length_take, hsl.len] at this; simp at this)
        (by rw [List.length_take, hsl.len]; rfl) (by simp [hsl.len])
      have hf := free_ok hset hfd
      rw [put_put] at hf
      have : free { s1 with nodes := s1.nodes.set i { n with index := 1 } } fd = free s1 fd := by
        have hlt : i < s1.nodes.length := (List.getElem?_eq_some_iff.mp hsl.at_).1
        have hget : s1.nodes[i] = n := (List.getElem?_eq_some_iff.mp hsl.at_).2
        have f1 : s1.nodes.findIdx? (·.fd = fd) = some i := by
          rw [List.findIdx?_eq_some_iff_getElem]
          refine ⟨hlt, by rw [hget]; simpa using hsl.fd_, ?_⟩
          intro j hj
          have : j < s1.nodes.length := by omega
          intro hc
          have := hsl.only j s1.nodes[j] (List.getElem?_eq_getElem this) (by simpa using hc)
          omega
        have f2 : (s1.nodes.set i { n with index := 1 }).findIdx? (·.fd = fd) = some i := by
          rw [List.findIdx?_eq_some_iff_getElem]
          refine ⟨by simpa using hlt, by simpa using hsl.fd_, ?_⟩
          intro j hj
          have hj' : j < s1.nodes.length := by omega
          rw [List.getElem_set_ne (by omega)]
          intro hc
          have := hsl.only j s1.nodes[j] (List.getElem?_eq_getElem hj') (by simpa using hc)
          omega
        unfold free
        rw [f1, f2]
        dsimp only
        congr 1
        apply List.ext_getElem?
        intro j
        rw [List.getElem?_modify, List.getElem?_modify]
        by_cases hj : i = j
        · subst hj
          rw [List.getElem?_set_self hlt, hsl.at_]
          simp
        · rw [List.getElem?_set_ne hj]
      rw [this] at hf
      exact hf
    · have hset := hsl.set h hfd (n' := n) (p := part fd) hsl.fd_ hsl.len hp hsl.index hsl.buf
      have hf := free_ok hset hfd
      rw [put_put] at hf
      have : s1.nodes.set i n = s1.nodes := by
        apply List.ext_getElem?
        intro j
        by_cases hj : i = j
        · subst hj
          rw [List.getElem?_set_self (List.getElem?_eq_some_iff.mp hsl.at_).1, hsl.at_]
        · rw [List.getElem?_set_ne hj]
      rw [this] at hf
      exact hf
  refine ⟨_, ?_, hfree⟩
  unfold step
  dsimp only
  rw [hs]
  simp only [C.ok_bind, hsl.at_]
  rw [if_neg (by rw [hsl.index]; omega), if_neg (by rw [hsl.index]; simp; omega)]
  simp

theorem actsOf_append (fd : Int) (a b : List Act) : actsOf fd (a ++ b) = actsOf fd a ++ actsOf fd b := by
  induction a with
  | nil => rfl
  | cons x a ih =>
    cases x <;> simp only [List.cons_append, actsOf] <;> split <;> simp [ih]

theorem run_ok {ops : List Op} : ∀ {part : Int → List Byte} {s : State} {out : Int → List (Option Msg)},
    Inv part s → (∀ fd, (part fd).length ≤ 4096) → (∀ fd d, .ready fd d ∈ ops → fd ≠ 0) →
    (∀ fd, Clean (part fd) (view fd ops) (out fd)) →
    ∃ s' acts, run s ops = .ok (s', acts) ∧ ∀ fd, actsOf fd acts = out fd := by
  induction ops with
  | nil =>
    intro part s out _ _ _ hc
    refine ⟨s, [], rfl, fun fd => ?_⟩
    have := hc fd
    simp only [view] at this
    generalize out fd = w at this
    generalize part fd = pf at this
    cases this
    rfl
  | cons o ops ih =>
    intro part s out h hl h0 hc
    have h0' : ∀ fd d, .ready fd d ∈ ops → fd ≠ 0 := fun fd d hm => h0 fd d (List.mem_cons_of_mem _ hm)
    -- what a step that concerns one client leaves to be done
    have key : ∀ {f : Int} {s1 : State} {a : List Act} {p : List Byte} {q : List (Option Msg)},
        step s o = .ok (s1, a) → Inv (put part f p) s1 → p.length ≤ 4096 →
        (∀ fd, fd ≠ f → view fd (o :: ops) = view fd ops) → Clean p (view f ops) q →
        out f = actsOf f a ++ q → (∀ fd, fd ≠ f → actsOf fd a = []) →
        ∃ s' acts, run s (o :: ops) = .ok (s', acts) ∧ ∀ fd, actsOf fd acts = out fd := by
      intro f s1 a p q hs hi hp hv hq ho ha
      obtain ⟨s', acts, hr, hacts⟩ := ih (out := fun fd => if fd = f then q else out fd) hi
        (fun fd => by unfold put; split; exact hp; exact hl fd) h0' (by
          intro fd
          by_cases he : fd = f
          · subst he; simp only [put, if_pos]; exact hq
          · simp only [put, if_neg he]
            rw [← hv fd he]; exact hc fd)
      refine ⟨s', a ++ acts, ?_, fun fd => ?_⟩
      · simp only [run, hs, C.ok_bind, hr]
      · rw [actsOf_append, hacts fd]
        by_cases he : fd = f
        · subst he; simp only [if_pos]; exact ho.symm
        · simp only [if_neg he, ha fd he, List.nil_append]
    cases o with
    | ready f d =>
      have hf := h0 f d (List.mem_cons_self)
      have hv : ∀ fd, fd ≠ f → view fd (.ready f d :: ops) = view fd ops := by
        intro fd hne; simp only [view, if_neg (fun e => hne e.symm : ¬ f = fd)]
      have hcf := hc f
      simp only [view, if_pos] at hcf
      generalize ho : out f = w at hcf
      generalize hpf : part f = pf at hcf
      cases hcf with
      | more hfits hd hp h4 h1 hrest =>
        subst hpf
        obtain ⟨s1, hs, hi⟩ := ready_more h hf hfits hd hp h4 h1
        have := hfits.2.2
        have hrl := request_length
        exact key hs hi (by rw [hrl] at h1; omega) hv hrest (by rw [ho]; rfl) (fun _ _ => rfl)
      | last hfits hd hp hrest =>
        subst hpf
        obtain ⟨s1, hs, hi⟩ := ready_last h hf hfits hd hp
        exact key hs hi (by simp) hv hrest (by rw [ho]; simp [actsOf])
          (fun fd hne => by simp only [actsOf, if_neg (Ne.symm hne)])
      | close hrest =>
        obtain ⟨s1, hs, hi⟩ := ready_close h hf (hl f)
        exact key hs hi (by simp) hv hrest (by rw [ho]; simp [actsOf])
          (fun fd hne => by simp only [actsOf, if_neg (Ne.symm hne)])
    | fail f =>
      have hcf := hc f
      simp only [view, if_pos] at hcf
      generalize part f = pf at hcf
      cases hcf
    | idle =>
      have hall : ∀ fd, part fd = [] ∧ Clean [] (view fd ops) (out fd) := by
        intro fd
        have hcf := hc fd
        simp only [view] at hcf
        generalize part fd = p at hcf
        generalize out fd = w at hcf
        cases hcf with
        | idle h => exact ⟨rfl, h⟩
      obtain ⟨s', acts, hr, hacts⟩ := ih (freeAll_ok h (fun fd _ => (hall fd).1)) hl h0' (out := out)
        (fun fd => by rw [(hall fd).1]; exact (hall fd).2)
      refine ⟨s', acts, ?_, hacts⟩
      simp only [run, step, C.ok_bind, hr, List.nil_append]

end Dax.Buff
