import Verif.Spec.ModbusPool
import Verif.Lemmas.Tactic
/-!
# C88: commands of a Modbus client go to their own address
-/
set_option autoImplicit false
namespace Dax
open MbConf

/-- The descriptor is open and leads to the address. -/
def leadsTo (fds : List (Int × Option (Nat × Nat))) (fd : Int) (a : Nat × Nat) : Prop := ((fds.find? fun x => x.1 == fd).map fun x => x.2).getD none = some a

/-- The invariant: connections are open, lead where they should, one for each address, with room in the array. -/
structure PoolInv (A : List (Nat × Nat)) (n : Net) : Prop where
  pos : ∀ c ∈ n.conns, 0 < c.fd
  leads : ∀ c ∈ n.conns, leadsTo n.fds c.fd (c.addr, c.port)
  known : ∀ c ∈ n.conns, (c.addr, c.port) ∈ A
  once : (n.conns.map fun c => (c.addr, c.port)).Nodup
  room : n.conns.length ≤ n.size
  size : n.size ∈ [16, 32, 64, 128, 256, 512, 1024, 2048]

theorem nodup_length {α : Type} [DecidableEq α] : ∀ (l A : List α), l.Nodup → (∀ x ∈ l, x ∈ A) → l.length ≤ A.length := by
  intro l
  induction l with
  | nil => intro A _ _; exact Nat.zero_le _
  | cons x l ih =>
    intro A hn hs
    rw [List.nodup_cons] at hn
    have hx := hs x List.mem_cons_self
    have h := ih (A.erase x) hn.2 (by
      intro y hy
      have hyx : y ≠ x := by intro h; subst h; exact hn.1 hy
      exact (List.mem_erase_of_ne hyx).mpr (hs y (List.mem_cons_of_mem _ hy)))
    rw [List.length_erase_of_mem hx] at h
    have : 0 < A.length := List.length_pos_of_mem hx
    rw [List.length_cons]
    omega

theorem leads_cons {fds : List (Int × Option (Nat × Nat))} {fd gd : Int} {a : Nat × Nat} {o : Option (Nat × Nat)} (h : leadsTo fds fd a)
    (hf : ∀ x ∈ fds, x.1 ≠ gd) : leadsTo ((gd, o) :: fds) fd a := by
  unfold leadsTo at h ⊢
  have hne : gd ≠ fd := by
    intro he
    subst he
    have : (fds.find? fun x => x.1 == gd) = none := by
      rw [List.find?_eq_none]
      intro x hx hb
      exact hf x hx (eq_of_beq hb)
    rw [this] at h
    cases h
  have hb : ((gd, o).1 == fd) = false := by
    rw [beq_eq_false_iff_ne]; exact hne
  rw [List.find?_cons, hb]
  exact h

theorem leads_new (fds : List (Int × Option (Nat × Nat))) (fd : Int) (a : Nat × Nat) : leadsTo ((fd, some a) :: fds) fd a := by
  unfold leadsTo
  rw [List.find?_cons]
  simp

theorem find_conn {n : Net} {addr port : Nat} {c : Conn} (h : n.conns.find? (fun c => c.addr == addr && c.port == port) = some c) :
    c ∈ n.conns ∧ c.addr = addr ∧ c.port = port := by
  have h1 := List.mem_of_find?_eq_some h
  have h2 := List.find?_some h
  simp only [Bool.and_eq_true, beq_iff_eq] at h2
  exact ⟨h1, h2.1, h2.2⟩

theorem unused_inv {A : List (Nat × Nat)} {n : Net} (hA : A.length ≤ 2048) (hi : PoolInv A n) (hlt : n.conns.length < A.length) :
    ∃ size, unusedConnection n = some (n.conns.length, size) ∧ n.conns.length + 1 ≤ size ∧ size ∈ [16, 32, 64, 128, 256, 512, 1024, 2048] := by
  unfold unusedConnection
  have hnone : n.conns.findIdx? (fun c => c.fd == 0) = none := by
    rw [List.findIdx?_eq_none_iff]
    intro c hc
    have := hi.pos c hc
    rw [beq_eq_false_iff_ne]
    omega
  rw [hnone]
  have hs := hi.size
  have hr := hi.room
  simp only [List.mem_cons, List.not_mem_nil, or_false] at hs ⊢
  by_cases h1 : n.conns.length = n.size
  · rw [if_pos h1, if_neg (by unfold MB_MAX_CONNECTION_SIZE; omega)]
    exact ⟨_, rfl, by omega, by omega⟩
  · rw [if_neg h1]
    exact ⟨_, rfl, by omega, by omega⟩

theorem getConnection_inv {A : List (Nat × Nat)} {n : Net} {addr port : Nat} {sc : Bool} {o : Opened} (hA : A.length ≤ 2048) (hi : PoolInv A n)
    (ha : (addr, port) ∈ A) (hf : Fresh n (.send addr port sc o)) :
    ∃ n' fd, getConnection n addr port o = .ok (n', fd) ∧ PoolInv A n' ∧ ((0 < fd ∧ leadsTo n'.fds fd (addr, port)) ∨ (fd < 0 ∧ ∀ gd, o ≠ .made gd)) := by
  unfold getConnection
  cases hfind : n.conns.find? (fun c => c.addr == addr && c.port == port) with
  | some c =>
    obtain ⟨h1, h2, h3⟩ := find_conn hfind
    refine ⟨_, _, rfl, hi, Or.inl ⟨hi.pos c h1, ?_⟩⟩
    have := hi.leads c h1
    rw [h2, h3] at this
    exact this
  | none =>
    simp only
    cases o with
    | noSocket =>
      unfold openIPport
      simp only
      rw [if_neg (by omega)]
      exact ⟨_, _, rfl, hi, Or.inr ⟨by omega, by intro gd h; cases h⟩⟩
    | refused gd =>
      unfold openIPport
      simp only
      rw [if_neg (by omega)]
      refine ⟨_, _, rfl, ⟨hi.pos, ?_, hi.known, hi.once, hi.room, hi.size⟩, Or.inr ⟨by omega, by intro gd h; cases h⟩⟩
      intro c hc
      exact leads_cons (hi.leads c hc) hf.2
    | made gd =>
      unfold openIPport
      simp only
      obtain ⟨hpos, hfresh⟩ := hf
      have hnot : (addr, port) ∉ n.conns.map fun c => (c.addr, c.port) := by
        intro hm
        rw [List.mem_map] at hm
        obtain ⟨c, hc, he⟩ := hm
        rw [List.find?_eq_none] at hfind
        injection he with e1 e2
        exact hfind c hc (by rw [e1, e2]; simp)
      have hlt : n.conns.length < A.length := by
        have := nodup_length ((addr, port) :: n.conns.map fun c => (c.addr, c.port)) A (List.nodup_cons.mpr ⟨hnot, hi.once⟩) (by
          intro x hx
          rcases List.mem_cons.mp hx with rfl | hx
          · exact ha
          · obtain ⟨c, hc, rfl⟩ := List.mem_map.mp hx
            exact hi.known c hc)
        rw [List.length_cons, List.length_map] at this
        omega
      have hi' : PoolInv A { n with fds := (gd, some (addr, port)) :: n.fds } :=
        ⟨hi.pos, fun c hc => leads_cons (hi.leads c hc) hfresh, hi.known, hi.once, hi.room, hi.size⟩
      obtain ⟨size, hu, hsz, hmem⟩ := unused_inv hA hi' hlt
      rw [if_pos (by omega), hu]
      simp only
      rw [if_neg (by omega)]
      refine ⟨_, _, rfl, ⟨?_, ?_, ?_, ?_, ?_, hmem⟩, Or.inl ⟨hpos, leads_new _ _ _⟩⟩
      · intro c hc
        rcases List.mem_append.mp hc with hc | hc
        · exact hi.pos c hc
        · rw [List.mem_singleton] at hc; subst hc; exact hpos
      · intro c hc
        rcases List.mem_append.mp hc with hc | hc
        · exact hi'.leads c hc
        · rw [List.mem_singleton] at hc; subst hc; exact leads_new _ _ _
      · intro c hc
        rcases List.mem_append.mp hc with hc | hc
        · exact hi.known c hc
        · rw [List.mem_singleton] at hc; subst hc; exact ha
      · dsimp only
        rw [List.map_append, List.nodup_append]
        refine ⟨hi.once, by simp, ?_⟩
        intro x hx y hy he
        rw [List.map_singleton, List.mem_singleton] at hy
        subst hy; subst he
        exact hnot hx
      · dsimp only
        rw [List.length_append]
        exact hsz

theorem step_inv {persist : Bool} {A : List (Nat × Nat)} {n : Net} {x : Step} (hA : A.length ≤ 2048) (hi : PoolInv A n) (hr : Regular persist A x)
    (hf : Fresh n x) : ∃ n' r, netStep persist n x = .ok (n', r) ∧ PoolInv A n' ∧ Reaches x r := by
  cases x with
  | close =>
    refine ⟨_, _, rfl, ⟨?_, ?_, ?_, ?_, Nat.zero_le _, hi.size⟩, rfl⟩
    · intro c hc; cases hc
    · intro c hc; cases hc
    · intro c hc; cases hc
    · exact List.nodup_nil
  | send addr port sc o =>
    obtain ⟨n', fd, hg, hi', hcase⟩ := getConnection_inv hA hi hr.1 hf
    unfold netStep
    simp only
    rw [hg]
    show ∃ n'' r, (if fd < 0 then _ else _) = C.ok (n'', r) ∧ _
    rcases hcase with ⟨hpos, hl⟩ | ⟨hneg, ho⟩
    · rw [if_neg (by omega)]
      have hno : ¬ (¬ sc = true ∧ ¬ persist = true) := by
        rintro ⟨h1, h2⟩
        rcases hr.2 with h | h
        · exact h2 h
        · exact h1 h
      rw [if_neg hno]
      refine ⟨_, _, rfl, hi', Or.inl ⟨fd, ?_⟩⟩
      unfold leadsTo at hl
      rw [hl]
    · rw [if_pos hneg]
      exact ⟨_, _, rfl, hi', Or.inr ⟨rfl, ho⟩⟩

theorem steps_inv {persist : Bool} {A : List (Nat × Nat)} (hA : A.length ≤ 2048) (xs : List Step) : ∀ {n : Net}, PoolInv A n →
    (∀ x ∈ xs, Regular persist A x) → Honest persist n xs → ∃ n' rs, netSteps persist n xs = .ok (n', rs) ∧ PoolInv A n' ∧ rs.length = xs.length ∧
      ∀ (i : Nat) x r, xs[i]? = some x → rs[i]? = some r → Reaches x r := by
  induction xs with
  | nil => intro n hi _ _; exact ⟨n, [], rfl, hi, rfl, by intro i x r h; cases h⟩
  | cons x xs ih =>
    intro n hi hr hh
    obtain ⟨hf, hh⟩ := hh
    obtain ⟨n1, r1, h1, hi1, hr1⟩ := step_inv hA hi (hr x List.mem_cons_self) hf
    obtain ⟨n2, rs, h2, hi2, hl, hall⟩ := ih hi1 (fun y hy => hr y (List.mem_cons_of_mem _ hy)) (hh n1 r1 h1)
    refine ⟨n2, r1 :: rs, ?_, hi2, by rw [List.length_cons, List.length_cons, hl], ?_⟩
    · unfold netSteps
      rw [h1]
      show (netSteps persist n1 xs >>= _) = _
      rw [h2]
      rfl
    · intro i y r hy hr
      cases i with
      | zero =>
        rw [List.getElem?_cons_zero] at hy hr
        injection hy with hy
        injection hr with hr
        subst hy; subst hr
        exact hr1
      | succ i =>
        rw [List.getElem?_cons_succ] at hy hr
        exact hall i y r hy hr

/-- **C88**: in any sequence of commands to at most 2048 addresses, with any of the connections failing and the port closed at any time between them, every command is written to a connection with its own address, or no connection could be made; there is never more than one connection to an address.

Missing: commands sent between two scans of a port whose connections do not persist (`C88_wrong`), more addresses (`C88_full`), sockets of failed attempts (`C88_leak`), connections the other side has closed (`C88_dead`). -/
theorem C88_own_partial {persist : Bool} {A : List (Nat × Nat)} {xs : List Step} (hA : A.length ≤ 2048) (hr : ∀ x ∈ xs, Regular persist A x)
    (hh : Honest persist {} xs) : ∃ n rs, netSteps persist {} xs = .ok (n, rs) ∧ rs.length = xs.length ∧
      (∀ (i : Nat) x r, xs[i]? = some x → rs[i]? = some r → Reaches x r) ∧ (n.conns.map fun c => (c.addr, c.port)).Nodup := by
  have h0 : PoolInv A ({} : Net) := by
    refine ⟨?_, ?_, ?_, List.nodup_nil, Nat.zero_le _, by decide⟩
    · intro c hc; cases hc
    · intro c hc; cases hc
    · intro c hc; cases hc
  obtain ⟨n, rs, h1, h2, h3, h4⟩ := steps_inv hA xs h0 hr hh
  exact ⟨n, rs, h1, h3, h4, h2.once⟩

/-- Two devices, a failed attempt, and a close. -/
def aRun : List Step := [.send 10 502 true (.made 5), .send 20 502 true (.refused 6), .send 20 502 true (.made 7), .send 10 502 true .noSocket, .close,
  .send 10 502 true (.made 5)]

/-- The result of a run in a form that can be compared. -/
def seen (r : C (Net × List (Option (Int × Option (Nat × Nat))))) : Option (Net × List (Option (Int × Option (Nat × Nat)))) :=
  match r with
  | .ok x => some x
  | .ub _ => none

/-- `Fresh` and `Honest` can be decided. -/
def freshB (n : Net) : Step → Bool
  | .send _ _ _ (.made fd) => decide (0 < fd) && n.fds.all fun x => x.1 != fd
  | .send _ _ _ (.refused fd) => decide (0 < fd) && n.fds.all fun x => x.1 != fd
  | _ => true

/-- The same for runs. -/
def honestB (persist : Bool) : Net → List Step → Bool
  | _, [] => true
  | n, x :: xs => freshB n x && match netStep persist n x with | .ok (n', _) => honestB persist n' xs | .ub _ => true

theorem freshB_ok {n : Net} {x : Step} (h : freshB n x = true) : Fresh n x := by
  cases x with
  | close => trivial
  | send a p s o =>
    cases o with
    | noSocket => trivial
    | refused fd => simpa [freshB, Fresh] using h
    | made fd => simpa [freshB, Fresh] using h

theorem honestB_ok {persist : Bool} (xs : List Step) : ∀ {n : Net}, honestB persist n xs = true → Honest persist n xs := by
  induction xs with
  | nil => intro n _; trivial
  | cons x xs ih =>
    intro n h
    unfold honestB at h
    rw [Bool.and_eq_true] at h
    refine ⟨freshB_ok h.1, ?_⟩
    intro n' r hs
    have h2 := h.2
    rw [hs] at h2
    exact ih h2

example : (∀ x ∈ aRun, Regular false [(10, 502), (20, 502)] x) ∧ Honest false {} aRun ∧ (seen (netSteps false {} aRun)).map (fun x => x.2) =
    some [some (5, some (10, 502)), none, some (7, some (20, 502)), some (5, some (10, 502)), none, some (5, some (10, 502))] := by
  refine ⟨?_, honestB_ok _ (by decide +kernel), by decide +kernel⟩
  intro x hx
  simp only [aRun, List.mem_cons, List.not_mem_nil, or_false] at hx
  rcases hx with rfl | rfl | rfl | rfl | rfl | rfl <;> simp [Regular]

/-! ## Where it fails -/

/-- A client whose connections do not persist: an event sends a command to device 10 between two scans; the connection is closed but stays in the pool.  In the next scan a command to device 20 gets the same descriptor from the system, and the command for device 10 is written to device 20. -/
theorem C88_wrong : Honest false {} [.send 10 502 false (.made 5), .send 20 502 true (.made 5), .send 10 502 true .noSocket] ∧
    (seen (netSteps false {} [.send 10 502 false (.made 5), .send 20 502 true (.made 5), .send 10 502 true .noSocket])).map (fun x => x.2) =
      some [some (5, some (10, 502)), some (5, some (20, 502)), some (5, some (20, 502))] :=
  ⟨honestB_ok _ (by decide +kernel), by decide +kernel⟩

/-- With 2048 connections a command to another address writes outside of the array. -/
theorem C88_full {n : Net} {addr port : Nat} {fd : Int} (hl : n.conns.length = 2048) (hs : n.size = 2048) (hp : ∀ c ∈ n.conns, 0 < c.fd)
    (hn : ∀ c ∈ n.conns, ¬ (c.addr = addr ∧ c.port = port)) (hfd : 0 < fd) : ∃ why, getConnection n addr port (.made fd) = .ub why := by
  unfold getConnection
  have hf : n.conns.find? (fun c => c.addr == addr && c.port == port) = none := by
    rw [List.find?_eq_none]
    intro c hc
    have := hn c hc
    simp only [Bool.and_eq_true, beq_iff_eq]
    exact this
  rw [hf]
  unfold openIPport
  simp only
  rw [if_pos (by omega)]
  have hu : unusedConnection { n with fds := (fd, some (addr, port)) :: n.fds } = none := by
    unfold unusedConnection
    have hnone : n.conns.findIdx? (fun c => c.fd == 0) = none := by
      rw [List.findIdx?_eq_none_iff]
      intro c hc
      have := hp c hc
      rw [beq_eq_false_iff_ne]
      omega
    dsimp only
    rw [hnone]
    dsimp only
    rw [if_pos (by omega), if_pos (by unfold MB_MAX_CONNECTION_SIZE; omega)]
  rw [hu]
  exact ⟨_, rfl⟩

/-- Such a pool comes from 2048 commands to different addresses. -/
example : (seen (netSteps true {} ((List.range 40).map fun k => .send k 502 true (.made (k + 3))))).map (fun x => (x.1.conns.length, x.1.size)) =
    some (40, 64) := by decide +kernel

/-- Every attempt to connect that fails leaves a socket open: the descriptors of the process run out. -/
theorem C88_leak {persist : Bool} (addr port : Nat) (sc : Bool) (fds : List Int) : ∀ {n : Net}, (∀ c ∈ n.conns, ¬ (c.addr = addr ∧ c.port = port)) →
    ∃ n' rs, netSteps persist n (fds.map fun fd => .send addr port sc (.refused fd)) = .ok (n', rs) ∧ n'.fds.length = n.fds.length + fds.length := by
  induction fds with
  | nil => intro n _; exact ⟨n, [], rfl, rfl⟩
  | cons fd fds ih =>
    intro n hn
    have hf : n.conns.find? (fun c => c.addr == addr && c.port == port) = none := by
      rw [List.find?_eq_none]
      intro c hc
      have := hn c hc
      simp only [Bool.and_eq_true, beq_iff_eq]
      exact this
    have hstep : netStep persist n (.send addr port sc (.refused fd)) = .ok ({ n with fds := (fd, none) :: n.fds }, none) := by
      unfold netStep getConnection
      simp only
      rw [hf]
      rfl
    obtain ⟨n', rs, h1, h2⟩ := ih (n := { n with fds := (fd, none) :: n.fds }) hn
    refine ⟨n', none :: rs, ?_, ?_⟩
    · rw [List.map_cons]
      unfold netSteps
      rw [hstep]
      show (netSteps persist _ _ >>= _) = _
      rw [h1]
      rfl
    · rw [h2]
      dsimp only
      rw [List.length_cons, List.length_cons]
      omega

example : ∀ c ∈ ({} : Net).conns, ¬ (c.addr = 10 ∧ c.port = 502) := by intro c hc; cases hc

/-- With persistent connections a command uses the connection of its address for ever, even if the other side has closed it: no new connection is made. -/
theorem C88_dead {addr port : Nat} {c : Conn} (hc : 0 < c.fd) (xs : List Step) : ∀ {n : Net}, (∀ x ∈ xs, x ≠ .close) →
    n.conns.find? (fun c => c.addr == addr && c.port == port) = some c → ∀ {n' rs}, netSteps true n xs = .ok (n', rs) →
    ∀ (i : Nat) sc o r, xs[i]? = some (.send addr port sc o) → rs[i]? = some r → ∃ d, r = some (c.fd, d) := by
  induction xs with
  | nil => intro n _ _ n' rs _ i sc o r h; cases h
  | cons x xs ih =>
    intro n hx hf n' rs hs
    unfold netSteps at hs
    obtain ⟨⟨n1, r1⟩, h1, hs⟩ := C.bind_eq_ok.mp hs
    obtain ⟨⟨n2, r2⟩, h2, hs⟩ := C.bind_eq_ok.mp hs
    injection hs with hs
    injection hs with hs1 hs2
    subst hs1; subst hs2
    have hkeep : n1.conns.find? (fun c => c.addr == addr && c.port == port) = some c ∧
        ∀ sc o, x = .send addr port sc o → ∃ d, r1 = some (c.fd, d) := by
      cases x with
      | close => exact absurd rfl (hx _ List.mem_cons_self)
      | send a p sc o =>
        unfold netStep at h1
        simp only at h1
        obtain ⟨⟨m, fd⟩, hg, h1⟩ := C.bind_eq_ok.mp h1
        have hm : m.conns.find? (fun c => c.addr == addr && c.port == port) = some c ∧ (a = addr → p = port → fd = c.fd) := by
          unfold getConnection at hg
          cases hfind : n.conns.find? (fun c => c.addr == a && c.port == p) with
          | some c' =>
            rw [hfind] at hg
            injection hg with hg
            injection hg with e1 e2
            subst e1; subst e2
            refine ⟨hf, ?_⟩
            rintro rfl rfl
            rw [hf] at hfind
            injection hfind with hfind
            rw [hfind]
          | none =>
            rw [hfind] at hg
            have hne : ¬ (a = addr ∧ p = port) := by
              rintro ⟨rfl, rfl⟩
              rw [hf] at hfind
              cases hfind
            simp only at hg
            refine ⟨?_, fun e1 e2 => absurd ⟨e1, e2⟩ hne⟩
            have hcs : (openIPport n a p o).1.conns = n.conns := by cases o <;> rfl
            generalize openIPport n a p o = q at hg hcs
            obtain ⟨m1, fd1⟩ := q
            simp only at hg hcs
            by_cases hfd : fd1 ≥ 0
            · rw [if_pos hfd] at hg
              cases hu : unusedConnection m1 with
              | none => rw [hu] at hg; cases hg
              | some ks =>
                obtain ⟨k, size⟩ := ks
                rw [hu] at hg
                simp only at hg
                injection hg with hg
                injection hg with e1 e2
                rw [← e1]
                dsimp only
                have hfm : m1.conns.find? (fun c => c.addr == addr && c.port == port) = some c := by rw [hcs]; exact hf
                by_cases hk : k < m1.conns.length
                · rw [if_pos hk]
                  unfold unusedConnection at hu
                  cases hidx : m1.conns.findIdx? (fun c => c.fd == 0) with
                  | none =>
                    rw [hidx] at hu
                    simp only at hu
                    split at hu
                    · split at hu
                      · cases hu
                      · injection hu with hu; injection hu with e3 e4; omega
                    · injection hu with hu; injection hu with e3 e4; omega
                  | some k' =>
                    rw [hidx] at hu
                    simp only at hu
                    injection hu with hu
                    injection hu with e3 e4
                    subst e3
                    obtain ⟨hlt, hz, -⟩ := List.findIdx?_eq_some_iff_getElem.mp hidx
                    obtain ⟨pre, post, hsplit, hpre⟩ := (List.find?_eq_some_iff_append.mp hfm).2
                    have hcm := (List.find?_eq_some_iff_append.mp hfm).1
                    have hkne : k' ≠ pre.length := by
                      intro he
                      subst he
                      have : m1.conns[pre.length] = c := by
                        have h0 : m1.conns[pre.length]? = some c := by rw [hsplit]; simp
                        rw [List.getElem?_eq_getElem hlt] at h0
                        injection h0
                      rw [this] at hz
                      simp only [beq_iff_eq] at hz
                      omega
                    rw [hsplit]
                    rw [List.find?_eq_some_iff_append]
                    refine ⟨hcm, ?_⟩
                    rcases Nat.lt_or_gt_of_ne hkne with hlt' | hgt
                    · refine ⟨pre.set k' { addr := a, port := p, fd := fd1 }, post, ?_, ?_⟩
                      · rw [List.set_append_left _ _ hlt']
                      · intro y hy
                        rcases List.mem_or_eq_of_mem_set hy with hy | hy
                        · exact hpre y hy
                        · subst hy
                          simp only [Bool.not_eq_true', Bool.and_eq_false_imp, beq_iff_eq, beq_eq_false_iff_ne]
                          intro e1 e2
                          exact hne ⟨e1, e2⟩
                    · refine ⟨pre, post.set (k' - pre.length - 1) { addr := a, port := p, fd := fd1 }, ?_, hpre⟩
                      rw [List.set_append_right _ _ (by omega)]
                      obtain ⟨j, hj⟩ : ∃ j, k' - pre.length = j + 1 := ⟨k' - pre.length - 1, by omega⟩
                      rw [hj]
                      rfl
                · rw [if_neg hk, List.find?_append, hfm]
                  rfl
            · rw [if_neg hfd] at hg
              injection hg with hg
              injection hg with e1 e2
              rw [← e1, hcs]
              exact hf
        by_cases hneg : fd < 0
        · rw [if_pos hneg] at h1
          injection h1 with h1
          injection h1 with e1 e2
          subst e1
          refine ⟨hm.1, ?_⟩
          intro sc' o' he
          injection he with e3 e4
          have := hm.2 e3 e4
          omega
        · rw [if_neg hneg] at h1
          injection h1 with h1
          injection h1 with e1 e2
          refine ⟨?_, ?_⟩
          · rw [← e1, if_neg (by simp)]; exact hm.1
          · intro sc' o' he
            injection he with e3 e4
            rw [← e2, hm.2 e3 e4]
            exact ⟨_, rfl⟩
    intro i sc o r hi hr
    cases i with
    | zero =>
      rw [List.getElem?_cons_zero] at hi hr
      injection hi with hi
      injection hr with hr
      subst hr
      exact hkeep.2 sc o hi
    | succ i =>
      rw [List.getElem?_cons_succ] at hi hr
      exact ih (fun y hy => hx y (List.mem_cons_of_mem _ hy)) hkeep.1 h2 i sc o r hi hr

/-- The other side closes the connection after the first command: the second gets the same descriptor, though a new connection could be made. -/
example : (seen (netSteps true {} [.send 10 502 true (.made 5), .send 10 502 true (.made 6)])).map (fun x => x.2) =
    some [some (5, some (10, 502)), some (5, some (10, 502))] := by decide +kernel

end Dax
