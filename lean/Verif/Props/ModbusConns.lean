import Verif.Spec.ModbusConns
import Verif.Lemmas.Basic
/-!
# Connections of the Modbus TCP server: C109
-/
set_option autoImplicit false
namespace Dax
open Dax.MbConns

/-! ## Lemmas -/

/-- The port has the connections of the server of the specification. -/
structure Conn109 (p : Port) (a : Conns) : Prop where
  up : p.down = false
  lis : p.listen ∈ p.fds
  max : ∀ fd ∈ p.fds, fd ≤ p.maxfd
  anone : a p.listen = none
  conn : ∀ fd, fd ≠ p.listen → a fd = if fd ∈ p.fds then getBuff p.bufs fd else none
  have_buff : ∀ fd ∈ p.fds, fd ≠ p.listen → getBuff p.bufs fd ≠ none

theorem last_le (fds : List Nat) : ∀ k n, n < k → n ∈ fds → n ≤ (List.range k).foldl (fun t n => if n ∈ fds then n else t) 0
  | 0, n, h, _ => by omega
  | k + 1, n, h, hn => by
    rw [List.range_succ, List.foldl_append]
    simp only [List.foldl_cons, List.foldl_nil]
    by_cases hk : k ∈ fds
    · rw [if_pos hk]; omega
    · rw [if_neg hk]
      have : n ≠ k := fun e => hk (e ▸ hn)
      exact last_le fds k n (by omega) hn

theorem getBuff_set (fd : Nat) (b : Buff) : ∀ (l : List (Nat × Buff)) (x : Nat), getBuff l fd ≠ none → getBuff (setBuff l fd b) x = if x = fd then some b else getBuff l x
  | [], x, h => absurd rfl h
  | (f, c) :: l, x, h => by
    simp only [setBuff]
    by_cases hf : f = fd
    · rw [if_pos hf]
      simp only [getBuff]
      by_cases hx : x = fd
      · rw [if_pos hx, if_pos (hf.trans hx.symm)]
      · rw [if_neg hx]
        have : f ≠ x := fun e => hx (e.symm.trans hf)
        rw [if_neg this, if_neg this]
    · rw [if_neg hf]
      simp only [getBuff] at h ⊢
      rw [if_neg hf] at h
      by_cases hx : f = x
      · rw [if_pos hx, if_pos hx, if_neg (fun e => hf (hx.trans e))]
      · rw [if_neg hx, if_neg hx]
        exact getBuff_set fd b l x h

theorem getBuff_clear : ∀ (l : List (Nat × Buff)) (x : Nat), getBuff (l.map (fun b => (b.1, { b.2 with count := 0 }))) x = (getBuff l x).map (fun b => { b with count := 0 })
  | [], x => rfl
  | (f, c) :: l, x => by
    simp only [List.map_cons, getBuff]
    by_cases hx : f = x
    · rw [if_pos hx, if_pos hx]; rfl
    · rw [if_neg hx, if_neg hx]; exact getBuff_clear l x

theorem conn_del {p : Port} {a : Conns} (h : Conn109 p a) {fd : Nat} (hl : fd ≠ p.listen) : Conn109 (delFd p fd) (a.put fd none) := by
  have e1 : (delFd p fd).listen = p.listen := by unfold delFd; dsimp only; split <;> rfl
  have e2 : (delFd p fd).fds = p.fds.filter (· ≠ fd) := by unfold delFd; dsimp only; split <;> rfl
  have e3 : (delFd p fd).bufs = p.bufs := by unfold delFd; dsimp only; split <;> rfl
  have e4 : (delFd p fd).down = p.down := by unfold delFd; dsimp only; split <;> rfl
  have hm : ∀ x, x ∈ (delFd p fd).fds ↔ x ∈ p.fds ∧ x ≠ fd := by
    intro x; rw [e2, List.mem_filter]; simp
  refine ⟨e4.trans h.up, ?_, ?_, ?_, ?_, ?_⟩
  · rw [hm, e1]; exact ⟨h.lis, fun e => hl e.symm⟩
  · intro x hx
    have hx' := (hm x).mp hx
    have h0 := h.max x hx'.1
    unfold delFd
    dsimp only
    by_cases hf : fd = p.maxfd
    · rw [if_pos hf]
      exact last_le _ _ x (by omega) (by rw [← e2]; exact hx)
    · rw [if_neg hf]; exact h0
  · rw [e1]; unfold Conns.put; rw [if_neg (fun e => hl e.symm)]; exact h.anone
  · intro x hx
    rw [e1] at hx
    unfold Conns.put
    by_cases hxf : x = fd
    · rw [if_pos hxf, if_neg (fun hq => ((hm x).mp hq).2 hxf)]
    · rw [if_neg hxf, h.conn x hx, e3]
      by_cases hq : x ∈ p.fds
      · rw [if_pos hq, if_pos ((hm x).mpr ⟨hq, hxf⟩)]
      · rw [if_neg hq, if_neg (fun q => hq ((hm x).mp q).1)]
  · intro x hx hxl
    rw [e3]
    rw [e1] at hxl
    exact h.have_buff x ((hm x).mp hx).1 hxl

theorem conn_set {p : Port} {a : Conns} (h : Conn109 p a) {fd : Nat} (hl : fd ≠ p.listen) (hf : fd ∈ p.fds) (b : Buff) : Conn109 { p with bufs := setBuff p.bufs fd b } (a.put fd (some b)) := by
  have h0 := h.have_buff fd hf hl
  refine ⟨h.up, h.lis, h.max, ?_, ?_, ?_⟩
  · unfold Conns.put; dsimp only; rw [if_neg (fun e => hl e.symm)]; exact h.anone
  · intro x hx
    dsimp only at hx ⊢
    rw [getBuff_set fd b p.bufs x h0]
    unfold Conns.put
    by_cases hxf : x = fd
    · rw [if_pos hxf, if_pos hxf, if_pos (hxf ▸ hf)]
    · rw [if_neg hxf, if_neg hxf]; exact h.conn x hx
  · intro x hx hxl
    dsimp only at hx hxl ⊢
    rw [getBuff_set fd b p.bufs x h0]
    by_cases hxf : x = fd
    · rw [if_pos hxf]; simp
    · rw [if_neg hxf]; exact h.have_buff x hx hxl

theorem conn_put_put (a : Conns) (fd : Nat) (b c : Option Buff) : (a.put fd b).put fd c = a.put fd c := by
  funext x
  unfold Conns.put
  by_cases hx : x = fd
  · rw [if_pos hx, if_pos hx]
  · rw [if_neg hx, if_neg hx, if_neg hx]

theorem conn_watched {p : Port} {a : Conns} (h : Conn109 p a) (fd : Nat) : (watched p fd = true ∧ fd ≠ p.listen) ↔ a fd ≠ none := by
  unfold watched
  simp only [Bool.and_eq_true, decide_eq_true_eq]
  constructor
  · rintro ⟨⟨h1, -⟩, h2⟩
    rw [h.conn fd h2, if_pos h1]
    exact h.have_buff fd h1 h2
  · intro hn
    have hl : fd ≠ p.listen := fun e => hn (e ▸ h.anone)
    rw [h.conn fd hl] at hn
    by_cases hf : fd ∈ p.fds
    · exact ⟨⟨hf, h.max fd hf⟩, hl⟩
    · rw [if_neg hf] at hn; exact absurd rfl hn

theorem conn_buff {p : Port} {a : Conns} (h : Conn109 p a) {fd : Nat} (ha : a fd ≠ none) : getBuff p.bufs fd = a fd ∧ fd ∈ p.fds ∧ fd ≠ p.listen := by
  have ⟨h1, h2⟩ := (conn_watched h fd).mpr ha
  unfold watched at h1
  simp only [Bool.and_eq_true, decide_eq_true_eq] at h1
  refine ⟨?_, h1.1, h2⟩
  rw [h.conn fd h2, if_pos h1.1]

/-- One step of the port is one of the server of the specification, unless the port goes down or a descriptor is too large. -/
theorem conn_step {σ : Type} (hd : Serve σ) {p : Port} {a : Conns} (h : Conn109 p a) (s : σ) (e : MbConns.Ev) :
    match MbConns.step hd p s e with
    | none => srvStep hd p.listen a s e = none
    | some (.ub w) => srvStep hd p.listen a s e = some (.ub w) ∨ ¬ Tame e
    | some (.ok (p', s', o)) => p'.listen = p.listen ∧ (∃ a', srvStep hd p.listen a s e = some (.ok (a', s', o)) ∧ (p'.down = false → Conn109 p' a')) ∧
        (p'.down = true → (∃ fd, e = .fail fd) ∨ ∃ fd d b b' out r, e = .data fd d ∧ hd s b d = .ok (s', b', out, r) ∧ r < 0 ∧ r ≠ -16) := by
  have hw : watched p p.listen = true := by
    unfold watched; simp only [Bool.and_eq_true, decide_eq_true_eq]; exact ⟨h.lis, h.max _ h.lis⟩
  have hel : ∀ fd, (delFd p fd).listen = p.listen := by intro fd; unfold delFd; dsimp only; split <;> rfl
  have hed : ∀ q fd, (delFd q fd).down = q.down := by intro q fd; unfold delFd; dsimp only; split <;> rfl
  cases e with
  | accept fd mem =>
    unfold MbConns.step srvStep
    dsimp only
    by_cases hf : fd ∈ p.fds
    · rw [if_neg (fun q => q.2.2 hf)]
      dsimp only
      rw [if_neg]
      rintro ⟨h1, h2⟩
      rw [h.conn fd h1, if_pos hf] at h2
      exact h.have_buff fd hf h1 h2
    · rw [if_pos ⟨h.up, hw, hf⟩]
      have hl : fd ≠ p.listen := fun e => hf (e ▸ h.lis)
      have ha : a fd = none := by rw [h.conn fd hl, if_neg hf]
      rw [if_pos ⟨hl, ha⟩]
      unfold addConnection addFd
      by_cases hb : fd ≥ 1024
      · rw [if_pos hb]
        exact .inr (fun q => by have : fd < 1024 := q; omega)
      · rw [if_neg hb]
        refine ⟨rfl, ⟨_, rfl, fun _ => ⟨h.up, List.mem_cons_of_mem _ h.lis, ?_, ?_, ?_, ?_⟩⟩, fun q => ?_⟩
        · intro x hx
          dsimp only at hx ⊢
          rcases List.mem_cons.mp hx with rfl | hx
          · split <;> omega
          · have := h.max x hx
            split <;> omega
        · unfold Conns.put; dsimp only; rw [if_neg (fun e => hl e.symm)]; exact h.anone
        · intro x hx
          dsimp only at hx ⊢
          unfold Conns.put
          simp only [getBuff]
          by_cases hxf : x = fd
          · rw [if_pos hxf, if_pos (hxf ▸ List.mem_cons_self), if_pos hxf.symm]
          · have hne : ¬ fd = x := fun e => hxf e.symm
            rw [if_neg hxf, h.conn x hx]
            by_cases hq : x ∈ p.fds
            · rw [if_pos hq, if_pos (List.mem_cons_of_mem _ hq), if_neg hne]
            · rw [if_neg hq, if_neg (fun q => (List.mem_cons.mp q).elim hxf hq)]
        · intro x hx hxl
          dsimp only at hx hxl ⊢
          simp only [getBuff]
          by_cases hxf : fd = x
          · rw [if_pos hxf]; simp
          · rw [if_neg hxf]
            exact h.have_buff x ((List.mem_cons.mp hx).elim (fun e => absurd e.symm hxf) id) hxl
        · exact absurd (h.up.symm.trans q) (by simp)
  | data fd d =>
    unfold MbConns.step srvStep
    dsimp only
    cases ha : a fd with
    | none =>
      rw [if_neg]
      · rintro ⟨-, q⟩; exact (conn_watched h fd).mp q ha
    | some b =>
      have hn : a fd ≠ none := by rw [ha]; simp
      obtain ⟨h1, h2, h3⟩ := conn_buff h hn
      rw [if_pos ⟨h.up, (conn_watched h fd).mpr hn⟩, h1, ha]
      dsimp only
      cases hs : hd s b d with
      | ub w => exact .inl rfl
      | ok x =>
        obtain ⟨s', b', out, r⟩ := x
        have hset := conn_set h h3 h2 b'
        show (after { p with bufs := setBuff p.bufs fd b' } fd r).listen = p.listen ∧ _
        unfold after
        by_cases hr : r = MB_ERR_NO_SOCKET
        · rw [if_pos hr]
          have hr' : r < 0 ∧ r ≠ -16 := by subst hr; decide
          refine ⟨?_, ⟨_, rfl, fun _ => ?_⟩, fun _ => .inr ⟨fd, d, b, b', out, r, rfl, hs, hr'⟩⟩
          · unfold delFd; dsimp only; split <;> rfl
          · dsimp only
            rw [if_pos hr', ← conn_put_put a fd (some b') none]
            exact conn_del hset h3
        · rw [if_neg hr]
          by_cases hr' : r < 0 ∧ r ≠ Modbus.MB_ERR_OVERFLOW
          · rw [if_pos hr']
            exact ⟨rfl, ⟨_, rfl, fun q => by cases q⟩, fun _ => .inr ⟨fd, d, b, b', out, r, rfl, hs, hr'⟩⟩
          · rw [if_neg hr']
            refine ⟨rfl, ⟨_, rfl, fun _ => ?_⟩, fun q => ?_⟩
            · dsimp only
              have : ¬ (r < 0 ∧ r ≠ -16) := hr'
              rw [if_neg this]
              exact hset
            · exact absurd (h.up.symm.trans q) (by simp)
  | eof fd =>
    unfold MbConns.step srvStep
    dsimp only
    by_cases ha : a fd = none
    · rw [if_neg (fun q => (conn_watched h fd).mp q.2 ha)]
      dsimp only
      rw [if_pos ha]
    · obtain ⟨h1, h2, h3⟩ := conn_buff h ha
      rw [if_pos ⟨h.up, (conn_watched h fd).mpr ha⟩, if_neg ha]
      dsimp only
      unfold after
      rw [if_pos rfl]
      refine ⟨hel fd, ⟨_, rfl, fun _ => conn_del h h3⟩, fun q => ?_⟩
      rw [hed] at q
      exact absurd (h.up.symm.trans q) (by simp)
  | fail fd =>
    unfold MbConns.step srvStep
    dsimp only
    by_cases ha : a fd = none
    · rw [if_neg (fun q => (conn_watched h fd).mp q.2 ha)]
      dsimp only
      rw [if_pos ha]
    · rw [if_pos ⟨h.up, (conn_watched h fd).mpr ha⟩, if_neg ha]
      exact ⟨rfl, ⟨_, rfl, fun q => by cases q⟩, fun _ => .inl ⟨fd, rfl⟩⟩
  | idle =>
    unfold MbConns.step srvStep
    dsimp only
    rw [if_pos h.up]
    refine ⟨rfl, ⟨_, rfl, fun _ => ⟨h.up, h.lis, h.max, ?_, ?_, ?_⟩⟩, fun q => absurd (h.up.symm.trans q) (by simp)⟩
    · unfold clearBuffers; dsimp only; rw [h.anone]; rfl
    · intro x hx
      unfold clearBuffers at hx ⊢
      dsimp only at hx ⊢
      rw [getBuff_clear, h.conn x hx]
      by_cases hq : x ∈ p.fds
      · rw [if_pos hq, if_pos hq]
      · rw [if_neg hq, if_neg hq]; rfl
    · intro x hx hxl
      unfold clearBuffers at hx hxl ⊢
      dsimp only at hx hxl ⊢
      rw [getBuff_clear]
      have := h.have_buff x hx hxl
      cases hq : getBuff p.bufs x with
      | none => exact absurd hq this
      | some b => simp

theorem down_step {σ : Type} (hd : Serve σ) {p : Port} (h : p.down = true) (s : σ) (e : MbConns.Ev) : MbConns.step hd p s e = none := by
  cases e <;> unfold MbConns.step <;> rw [h] <;> simp

theorem conn_listening {l : Nat} {p : Port} (h : listening l = .ok p) : p.listen = l ∧ Conn109 p (fun _ => none) := by
  unfold listening addFd at h
  by_cases hl : l ≥ 1024
  · rw [if_pos hl] at h; cases h
  · rw [if_neg hl] at h
    cases h
    refine ⟨rfl, ⟨rfl, List.mem_cons_self, ?_, rfl, ?_, ?_⟩⟩
    · intro x hx
      dsimp only at hx ⊢
      rcases List.mem_cons.mp hx with rfl | hx
      · split <;> omega
      · cases hx
    · intro x hx
      dsimp only at hx ⊢
      rw [if_neg]
      intro q
      rcases List.mem_cons.mp q with rfl | q
      · exact hx rfl
      · cases q
    · intro x hx hxl
      dsimp only at hx hxl
      rcases List.mem_cons.mp hx with rfl | q
      · exact absurd rfl hxl
      · cases q

theorem conn_run {σ : Type} (hd : Serve σ) : ∀ (es : List MbConns.Ev) {p p' : Port} {a : Conns} {s s' : σ} {o : List Sent}, Conn109 p a → MbConns.run hd p s es = some (.ok (p', s', o)) → p'.down = false →
    ∃ a', srvRun hd p.listen a s es = some (.ok (a', s', o))
  | [], p, p', a, s, s', o, _, h, _ => by cases h; exact ⟨a, rfl⟩
  | e :: es, p, p', a, s, s', o, hc, h, hup => by
    have hs := conn_step hd hc s e
    simp only [MbConns.run] at h
    simp only [srvRun]
    cases he : MbConns.step hd p s e with
    | none => rw [he] at h; cases h
    | some x =>
      rw [he] at h hs
      cases x with
      | ub w => cases h
      | ok x =>
        obtain ⟨p1, s1, o1⟩ := x
        dsimp only at h hs
        obtain ⟨hl, ⟨a1, h1, h2⟩, -⟩ := hs
        rw [h1]
        dsimp only
        cases hr : MbConns.run hd p1 s1 es with
        | none => rw [hr] at h; cases h
        | some y =>
          rw [hr] at h
          cases y with
          | ub w => cases h
          | ok y =>
            obtain ⟨p2, s2, o2⟩ := y
            dsimp only at h
            cases h
            have hd1 : p1.down = false := by
              cases hq : p1.down with
              | false => rfl
              | true =>
                cases es with
                | nil => simp only [MbConns.run] at hr; cases hr; exact hq.symm.trans hup
                | cons e' es' => simp only [MbConns.run] at hr; rw [down_step hd hq] at hr; cases hr
            obtain ⟨a2, h3⟩ := conn_run hd es (h2 hd1) hr hup
            rw [hl] at h3
            rw [h3]
            exact ⟨a2, rfl⟩

theorem conn_served {σ : Type} (hd : Serve σ) (hh : ∀ s b d s' b' out r, hd s b d = .ok (s', b', out, r) → ¬ (r < 0 ∧ r ≠ -16)) :
    ∀ (es : List MbConns.Ev) {p : Port} {a a' : Conns} {s s' : σ} {o : List Sent}, Conn109 p a → (∀ e ∈ es, Tame e) → srvRun hd p.listen a s es = some (.ok (a', s', o)) →
    ∃ p', MbConns.run hd p s es = some (.ok (p', s', o)) ∧ p'.down = false
  | [], p, a, a', s, s', o, hc, _, h => by cases h; exact ⟨p, rfl, hc.up⟩
  | e :: es, p, a, a', s, s', o, hc, ht, h => by
    have hs := conn_step hd hc s e
    simp only [srvRun] at h
    simp only [MbConns.run]
    cases he : MbConns.step hd p s e with
    | none => rw [he] at hs; dsimp only at hs; rw [hs] at h; cases h
    | some x =>
      rw [he] at hs
      cases x with
      | ub w =>
        dsimp only at hs
        rcases hs with hs | hs
        · rw [hs] at h; cases h
        · exact absurd (ht e List.mem_cons_self) hs
      | ok x =>
        obtain ⟨p1, s1, o1⟩ := x
        dsimp only at hs ⊢
        obtain ⟨hl, ⟨a1, h1, h2⟩, h3⟩ := hs
        rw [h1] at h
        dsimp only at h
        have hd1 : p1.down = false := by
          cases hq : p1.down with
          | false => rfl
          | true =>
            rcases h3 hq with ⟨fd, rfl⟩ | ⟨fd, d, b, b', out, r, -, h4, h5⟩
            · exact absurd (ht _ List.mem_cons_self) id
            · exact absurd h5 (hh _ _ _ _ _ _ _ h4)
        rw [← hl] at h
        cases hr : srvRun hd p1.listen a1 s1 es with
        | none => rw [hr] at h; cases h
        | some y =>
          rw [hr] at h
          cases y with
          | ub w => cases h
          | ok y =>
            obtain ⟨a2, s2, o2⟩ := y
            dsimp only at h
            cases h
            obtain ⟨p2, h4, h5⟩ := conn_served hd hh es (h2 hd1) (fun e he => ht e (List.mem_cons_of_mem _ he)) hr
            rw [h4]
            exact ⟨p2, rfl, h5⟩

/-! ## C109 -/

/-- **C109**, connections are kept apart, as long as the server is not down: whatever is done with the bytes, what is sent on each connection and what becomes of everything else is what a server does that has for each connection its own bytes, which begin with nothing.

Missing: histories in which one connection fails, after which nothing is served (`C109_down`). -/
theorem C109_apart_partial {σ : Type} (hd : Serve σ) {l : Nat} {p p' : Port} {s s' : σ} {es : List MbConns.Ev} {o : List Sent} (hl : listening l = .ok p)
    (h : MbConns.run hd p s es = some (.ok (p', s', o))) (hup : p'.down = false) : ∃ a', srvRun hd l (fun _ => none) s es = some (.ok (a', s', o)) := by
  obtain ⟨h1, h2⟩ := conn_listening hl
  have := conn_run hd es h2 h hup
  rw [h1] at this
  exact this

/-- **C109**, everything is served that such a server serves, if no connection fails and descriptors are below 1024.

Missing: other histories, `C109_down` and `C109_many`. -/
theorem C109_served_partial {σ : Type} (hd : Serve σ) (hh : ∀ s b d s' b' out r, hd s b d = .ok (s', b', out, r) → ¬ (r < 0 ∧ r ≠ -16)) {l : Nat} {p : Port} {s s' : σ} {es : List MbConns.Ev} {a' : Conns} {o : List Sent}
    (hl : listening l = .ok p) (ht : ∀ e ∈ es, Tame e) (h : srvRun hd l (fun _ => none) s es = some (.ok (a', s', o))) : ∃ p', MbConns.run hd p s es = some (.ok (p', s', o)) ∧ p'.down = false := by
  obtain ⟨h1, h2⟩ := conn_listening hl
  rw [← h1] at h
  exact conn_served hd hh es h2 ht h

/-- **C109** fails: an error on one connection ends the service of all, and nothing that happens afterwards is seen. -/
theorem C109_down {σ : Type} (hd : Serve σ) {p p' : Port} {s s' : σ} {fd : Nat} {o : List Sent} (h : MbConns.step hd p s (.fail fd) = some (.ok (p', s', o))) :
    o = [] ∧ ∀ e es s, MbConns.run hd p' s (e :: es) = none := by
  unfold MbConns.step at h
  dsimp only at h
  by_cases hc : p.down = false ∧ watched p fd ∧ fd ≠ p.listen
  · rw [if_pos hc] at h
    cases h
    refine ⟨rfl, fun e es s => ?_⟩
    simp only [MbConns.run]
    rw [down_step hd (by rfl)]
  · rw [if_neg hc] at h; cases h

/-- **C109** fails: with two connections open the failure of the first leaves the second without answers, which a server is to give. -/
theorem C109_down_shown : ∃ (hd : Serve Unit) (p : Port) (es : List MbConns.Ev) (e : MbConns.Ev), listening 3 = .ok p ∧ MbConns.run hd p () (es ++ [e]) = none ∧ (∃ p', MbConns.run hd p () es = some (.ok (p', (), []))) ∧
    ∃ a, srvRun hd 3 (fun _ => none) () (es ++ [e]) = some (.ok (a, (), [⟨5, [1]⟩])) :=
  ⟨fun s b d => .ok (s, b, some d, 0), _, [.accept 4 [], .accept 5 [], .fail 4], .data 5 [1], rfl, rfl, ⟨_, rfl⟩, ⟨_, rfl⟩⟩

/-- **C109** fails: a connection with a descriptor from 1024 on is written outside the set. -/
theorem C109_many {σ : Type} (hd : Serve σ) {p : Port} {s : σ} {fd : Nat} {mem : List Byte} (h : fd ≥ 1024) {x : C (Port × σ × List Sent)} (hs : MbConns.step hd p s (.accept fd mem) = some x) : ∃ w, x = .ub w := by
  unfold MbConns.step at hs
  dsimp only at hs
  by_cases hc : p.down = false ∧ watched p p.listen ∧ fd ∉ p.fds
  · rw [if_pos hc] at hs
    unfold addConnection addFd at hs
    rw [if_pos h] at hs
    cases hs
    exact ⟨_, rfl⟩
  · rw [if_neg hc] at hs; cases hs

theorem setBuff_length (fd : Nat) (b : Buff) : ∀ l, (setBuff l fd b).length = l.length
  | [] => rfl
  | (f, c) :: l => by
    simp only [setBuff]
    by_cases hf : f = fd
    · rw [if_pos hf]; rfl
    · rw [if_neg hf, List.length_cons, setBuff_length fd b l]; rfl

theorem after_bufs (p : Port) (fd : Nat) (r : Int) : (after p fd r).bufs = p.bufs := by
  unfold after delFd
  dsimp only
  split
  · split <;> rfl
  · split <;> rfl

/-- **C109** fails: the buffer of a connection is never given back; their number is that of all connections ever accepted. -/
theorem C109_leak {σ : Type} (hd : Serve σ) : ∀ (es : List MbConns.Ev) {p p' : Port} {s s' : σ} {o : List Sent}, MbConns.run hd p s es = some (.ok (p', s', o)) → p'.bufs.length = p.bufs.length + accepts es
  | [], p, p', s, s', o, h => by cases h; rfl
  | e :: es, p, p', s, s', o, h => by
    simp only [MbConns.run] at h
    cases he : MbConns.step hd p s e with
    | none => rw [he] at h; cases h
    | some x =>
      rw [he] at h
      cases x with
      | ub w => cases h
      | ok x =>
        obtain ⟨p1, s1, o1⟩ := x
        dsimp only at h
        cases hr : MbConns.run hd p1 s1 es with
        | none => rw [hr] at h; cases h
        | some y =>
          rw [hr] at h
          cases y with
          | ub w => cases h
          | ok y =>
            obtain ⟨p2, s2, o2⟩ := y
            dsimp only at h
            cases h
            have ih := C109_leak hd es hr
            rw [ih]
            cases e with
            | accept fd mem =>
              simp only [MbConns.step] at he
              split at he
              · simp only [Option.some.injEq] at he
                obtain ⟨q, h1, h2⟩ := C.bind_eq_ok.mp he
                cases h2
                unfold addConnection addFd at h1
                split at h1
                · cases h1
                · cases h1
                  simp only [List.length_cons, accepts]
                  omega
              · cases he
            | data fd d =>
              simp only [MbConns.step] at he
              split at he
              · split at he
                · cases he
                · simp only [Option.some.injEq] at he
                  obtain ⟨⟨q1, q2, q3, q4⟩, h1, h2⟩ := C.bind_eq_ok.mp he
                  cases h2
                  rw [after_bufs]
                  dsimp only
                  rw [setBuff_length]
                  rfl
              · cases he
            | eof fd =>
              simp only [MbConns.step] at he
              split at he
              · cases he; rw [after_bufs]; rfl
              · cases he
            | fail fd =>
              simp only [MbConns.step] at he
              split at he
              · cases he; rw [after_bufs]; rfl
              · cases he
            | idle =>
              simp only [MbConns.step] at he
              split at he
              · cases he; unfold clearBuffers; simp only [List.length_map]; rfl
              · cases he

/-- Instance of the hypotheses: a connection leaves half a message, the next one with its descriptor begins with nothing; a third one goes on beside it. -/
example : ∃ (hd : Serve Unit) (p p' : Port), listening 3 = .ok p ∧
    MbConns.run hd p () [.accept 4 [], .data 4 [7], .accept 5 [], .data 5 [1], .eof 4, .accept 4 [9], .data 4 [8], .data 5 [2]] =
      some (.ok (p', (), [⟨4, [1]⟩, ⟨5, [1]⟩, ⟨4, [1]⟩, ⟨5, [2]⟩])) ∧ p'.down = false ∧ p'.bufs.length = 3 :=
  ⟨fun s b d => .ok (s, ⟨b.mem, b.count + d.length⟩, some [BitVec.ofNat 8 (b.count + d.length)], 0), _, _, rfl, rfl, rfl, rfl⟩

end Dax
