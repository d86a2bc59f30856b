import Verif.Props.ModbusWrite
import Verif.Spec.ModbusMaster
/-!
# C64–C66: exchanges of the Modbus master with a slave
-/
set_option autoImplicit false
namespace Dax
open Modbus LibData

/-! ## C65 -/

theorem sendRequest_inv {tcp : Bool} {o : Outside} {l l' : Link} (h : sendRequest tcp o l = .ok (some l')) :
    ∃ out cmd, frameFor tcp l.tid l.job.cmd o = .ok (some (out, cmd)) ∧
      l' = { l with tid := (if tcp then (l.tid + 1) % 65536 else l.tid), sent := l.sent ++ [out], pending := (if tcp then l.pending else []), job := { l.job with cmd := cmd, st := { l.job.st with requests := l.job.st.requests + 1 } } } := by
  unfold sendRequest at h
  obtain ⟨r, h1, h⟩ := C.bind_eq_ok.mp h
  match r, h1, h with
  | none, _, h => simp at h
  | some (out, cmd), h1, h =>
    simp only [C.ok.injEq, Option.some.injEq] at h
    exact ⟨out, cmd, h1, h.symm⟩

theorem receive_inv {tcp : Bool} {heard : List (List Byte)} {l l' : Link} {n : Int} (h : receive tcp heard l = .ok (l', n)) :
    l' = { l with buff := l'.buff, pending := l'.pending } := by
  unfold receive at h
  split at h
  · obtain ⟨⟨b, n', r⟩, -, h⟩ := C.bind_eq_ok.mp h
    simp only [C.ok.injEq, Prod.mk.injEq] at h
    rw [← h.1]
  · obtain ⟨⟨b, n'⟩, -, h⟩ := C.bind_eq_ok.mp h
    simp only [C.ok.injEq, Prod.mk.injEq] at h
    rw [← h.1]

theorem jobHandle_st (job : Job) (find : Option Handle) : (jobHandle job find).st = job.st ∧ (jobHandle job find).cmd = job.cmd := by
  unfold jobHandle
  split
  · exact ⟨rfl, rfl⟩
  · split <;> exact ⟨rfl, rfl⟩

theorem sendReadData_job {s s' : Server} {fd : Int} {c c' : TypeCache} {job job' : Job} {find : Option Handle}
    (h : sendReadData s fd c job find = .ok (s', c', job')) : job'.st = job.st ∧ job'.cmd = job.cmd := by
  have hj := jobHandle_st job find
  unfold sendReadData at h
  dsimp only at h
  split at h
  · simp only [C.ok.injEq, Prod.mk.injEq] at h
    rw [← h.2.2]; exact hj
  · obtain ⟨⟨s1, c1, l1, o1, d1⟩, -, h⟩ := C.bind_eq_ok.mp h
    dsimp only at h
    split at h
    · cases h
    · simp only [C.ok.injEq, Prod.mk.injEq] at h
      rw [← h.2.2]; exact hj

theorem answered_inv {fd : Int} {o : Outside} {l l' : Link} (h : answered fd o l = .ok l') :
    l'.sent = l.sent ∧ l'.job.st.requests = l.job.st.requests ∧ l'.job.st.responses = l.job.st.responses + 1 ∧
      l'.job.st.timeouts = l.job.st.timeouts ∧ l'.job.st.crcerrors = l.job.st.crcerrors := by
  unfold answered at h
  obtain ⟨⟨data, r⟩, -, h⟩ := C.bind_eq_ok.mp h
  dsimp only at h
  split at h
  · simp only [C.ok.injEq] at h
    subst h
    exact ⟨rfl, rfl, rfl, rfl, rfl⟩
  · split at h
    · obtain ⟨⟨s1, c1, j1⟩, h1, h⟩ := C.bind_eq_ok.mp h
      simp only [C.ok.injEq] at h
      subst h
      have := (sendReadData_job h1).1
      dsimp only
      rw [this]
      exact ⟨rfl, rfl, rfl, rfl, rfl⟩
    · simp only [C.ok.injEq] at h
      subst h
      exact ⟨rfl, rfl, rfl, rfl, rfl⟩

theorem tryOnce_accounted {fd : Int} {tcp : Bool} {o : Outside} {heard : List (List Byte)} {l l' : Link} {r : Option Int}
    (h : tryOnce fd tcp o heard l = .ok (l', r)) :
    (r = some 0 ∧ l'.sent = l.sent ∧ l'.job = l.job) ∨
    ∃ out, l'.sent = l.sent ++ [out] ∧ l'.job.st.requests = l.job.st.requests + 1 ∧
      ((∃ x, r = some x ∧ 0 < x ∧ l'.job.st.responses = l.job.st.responses + 1 ∧ l'.job.st.timeouts = l.job.st.timeouts ∧
          l'.job.st.crcerrors = l.job.st.crcerrors) ∨
       (r = none ∧ l'.job.st.responses = l.job.st.responses ∧ l'.job.st.timeouts = l.job.st.timeouts + 1 ∧
          l'.job.st.crcerrors = l.job.st.crcerrors ∧ l'.job.st.lasterror = 8) ∨
       (r = none ∧ l'.job.st.responses = l.job.st.responses ∧ l'.job.st.timeouts = l.job.st.timeouts ∧
          l'.job.st.crcerrors = l.job.st.crcerrors + 1 ∧ l'.job.st.lasterror = 4)) := by
  unfold tryOnce at h
  obtain ⟨q, h1, h⟩ := C.bind_eq_ok.mp h
  match q, h1, h with
  | none, _, h =>
    simp only [C.ok.injEq, Prod.mk.injEq] at h
    obtain ⟨rfl, rfl⟩ := h
    exact .inl ⟨rfl, rfl, rfl⟩
  | some l1, h1, h =>
    dsimp only at h
    obtain ⟨out, cmd, -, e1⟩ := sendRequest_inv h1
    obtain ⟨⟨l2, m⟩, h2, h⟩ := C.bind_eq_ok.mp h
    have e2 := receive_inv h2
    dsimp only at h
    have es : l2.sent = l.sent ++ [out] := by rw [e2, e1]
    have et : l2.job.st = { l.job.st with requests := l.job.st.requests + 1 } := by rw [e2, e1]
    refine .inr ⟨out, ?_⟩
    split at h
    · rename_i hm
      obtain ⟨l3, h3, h⟩ := C.bind_eq_ok.mp h
      simp only [C.ok.injEq, Prod.mk.injEq] at h
      obtain ⟨rfl, rfl⟩ := h
      obtain ⟨a1, a2, a3, a4, a5⟩ := answered_inv h3
      rw [et] at a2 a3 a4 a5
      exact ⟨by rw [a1, es], a2, .inl ⟨m, rfl, hm, a3, a4, a5⟩⟩
    · rename_i hm
      simp only [C.ok.injEq, Prod.mk.injEq] at h
      obtain ⟨rfl, rfl⟩ := h
      refine ⟨es, ?_⟩
      dsimp only
      rw [et]
      split
      · exact ⟨rfl, .inr (.inl ⟨rfl, rfl, rfl, rfl, rfl⟩)⟩
      · exact ⟨rfl, .inr (.inr ⟨rfl, rfl, rfl, rfl, rfl⟩)⟩

theorem tryLoop_accounted {fd : Int} {tcp : Bool} {o : Outside} : ∀ (k n : Nat) (l l' : Link) (r : Int), tryLoop fd tcp o k n l = .ok (l', r) →
    ∃ fs : List (List Byte), l'.sent = l.sent ++ fs ∧ fs.length ≤ k + 1 ∧ Accounted l.job.st l'.job.st fs.length ∧
      (0 < r ↔ l'.job.st.responses = l.job.st.responses + 1) ∧
      (r < 0 → fs.length = k + 1 ∧ r = -(l'.job.st.lasterror : Int) ∧ (l'.job.st.lasterror = 4 ∨ l'.job.st.lasterror = 8)) := by
  intro k
  induction k with
  | zero =>
    intro n l l' r h
    unfold tryLoop at h
    obtain ⟨⟨l1, q⟩, h1, h⟩ := C.bind_eq_ok.mp h
    simp only [C.ok.injEq, Prod.mk.injEq] at h
    obtain ⟨rfl, rfl⟩ := h
    rcases tryOnce_accounted h1 with ⟨rfl, e1, e2⟩ | ⟨out, e1, e2, ⟨x, rfl, hx, e3, e4, e5⟩ | ⟨rfl, e3, e4, e5, e6⟩ | ⟨rfl, e3, e4, e5, e6⟩⟩
    · exact ⟨[], by rw [e1]; simp, by simp, by rw [e2]; exact ⟨rfl, rfl, .inl rfl, ⟨Nat.le_refl _, Nat.le_refl _⟩⟩, by rw [e2]; simp, by simp⟩
    all_goals
      refine ⟨[out], e1, by simp, ⟨?_, ?_, ?_, ?_⟩, ?_, ?_⟩ <;> try simp only [List.length_singleton, Option.getD_some, Option.getD_none]
      all_goals first | omega | exact fun _ => ⟨trivial, trivial, by omega⟩
  | succ k ih =>
    intro n l l' r h
    unfold tryLoop at h
    obtain ⟨⟨l1, q⟩, h1, h⟩ := C.bind_eq_ok.mp h
    rcases tryOnce_accounted h1 with ⟨rfl, e1, e2⟩ | ⟨out, e1, e2, ⟨x, rfl, hx, e3, e4, e5⟩ | ⟨rfl, e3, e4, e5, e6⟩ | ⟨rfl, e3, e4, e5, e6⟩⟩
    · simp only [C.ok.injEq, Prod.mk.injEq] at h
      obtain ⟨rfl, rfl⟩ := h
      exact ⟨[], by rw [e1]; simp, by simp, by rw [e2]; exact ⟨rfl, rfl, .inl rfl, ⟨Nat.le_refl _, Nat.le_refl _⟩⟩, by rw [e2]; simp, by simp⟩
    · simp only [C.ok.injEq, Prod.mk.injEq] at h
      obtain ⟨rfl, rfl⟩ := h
      refine ⟨[out], e1, by simp, ⟨?_, ?_, ?_, ?_⟩, ?_, ?_⟩ <;> try simp only [List.length_singleton]
      all_goals omega
    all_goals
      obtain ⟨fs, b1, b2, ⟨c1, c2, c3, c4, c5⟩, b4, b5⟩ := ih _ _ _ _ h
      refine ⟨out :: fs, by rw [b1, e1]; simp, by simp; omega, ⟨?_, ?_, ?_, ?_⟩, ?_, ?_⟩ <;> try simp only [List.length_cons]
      all_goals omega

end Dax
