import Verif.Lemmas.Socks

/-!
# Helper lemmas about the SOCKS5 client
-/

set_option autoImplicit false

namespace StAsio

/-- The replies the client takes for a success: the good ones, and incomplete ones of 6 bytes with an unknown address type or, if char is signed, with a domain name of 255 bytes. -/
def takenReply (signed : Bool) (bs : Bytes) : Bool :=
  goodReply bs ||
  (decide (bs.length = 6) && decide (bs[1]? = some 0) && ((decide (bs[3]? ≠ some 1) && decide (bs[3]? ≠ some 3) && decide (bs[3]? ≠ some 4)) || (signed && decide (bs[3]? = some 3) && decide (bs[4]? = some 255))))

theorem s5Run_append (g : Bytes → Bool) (c : S5Conf) (m : S5St) (es fs : List S5Ev) : s5Run g c m (es ++ fs) = (s5Run g c m es).bind (fun x => s5Run g x.1 x.2 fs) := by
  induction es generalizing c m with
  | nil => rfl
  | cons e es ih =>
    simp only [List.cons_append, s5Run]
    split
    · exact ih _ _
    · rfl

theorem ofNat_toNat_lt {n : Nat} (h : n < 256) : (UInt8.ofNat n).toNat = n := by
  rw [UInt8.toNat_ofNat']
  omega

/-! ### What is written -/

theorem S5.sendMethod_eq {s : S5} (hb : s.buf.length = 64) : ∃ b bs n, s.sendMethod = some ({ s with buf := b, resLen := 0, reqLen := n, phase := .writing }, [.wrote bs]) ∧ b.length = 64 ∧ n = bs.length ∧
    readGreeting bs = some (if s.user = [] ∧ s.pass = [] then [0] else [0, 2]) := by
  obtain ⟨x0, x1, x2, x3, rest, hbuf⟩ : ∃ x0 x1 x2 x3 rest, s.buf = x0 :: x1 :: x2 :: x3 :: rest := by
    match h : s.buf, hb with
    | x0 :: x1 :: x2 :: x3 :: rest, _ => exact ⟨x0, x1, x2, x3, rest, rfl⟩
  rw [hbuf] at hb
  simp at hb
  have p0 : poke s.buf 0 [5] = some (5 :: x1 :: x2 :: x3 :: rest) := by simp [poke, hbuf]
  have p1 : ∀ v : Byte, poke (5 :: x1 :: x2 :: x3 :: rest) 1 [v] = some (5 :: v :: x2 :: x3 :: rest) := by intro v; simp [poke]
  have p2 : ∀ v w : Byte, poke (5 :: v :: x2 :: w :: rest) 2 [0] = some (5 :: v :: 0 :: w :: rest) := by intro v w; simp [poke]
  have p3 : ∀ v : Byte, poke (5 :: v :: x2 :: x3 :: rest) 3 [2] = some (5 :: v :: x2 :: 2 :: rest) := by intro v; simp [poke]
  by_cases hc : s.user = [] ∧ s.pass = []
  · refine ⟨5 :: 1 :: 0 :: x3 :: rest, [5, 1, 0], 3, ?_, ?_, ?_, ?_⟩
    · simp only [S5.sendMethod, p0, Option.bind_eq_bind, Option.bind_some, if_pos hc, p1, p2]; rfl
    · simp; omega
    · rfl
    · rw [if_pos hc]; rfl
  · refine ⟨5 :: 2 :: 0 :: 2 :: rest, [5, 2, 0, 2], 4, ?_, ?_, ?_, ?_⟩
    · simp only [S5.sendMethod, p0, Option.bind_eq_bind, Option.bind_some, if_neg hc, p1, p2, p3]; rfl
    · simp; omega
    · rfl
    · rw [if_neg hc]; rfl

theorem S5.sendAuth_eq {s : S5} (hb : s.buf.length = 64) (hl : s.user.length + s.pass.length ≤ 60) :
    ∃ b, s.sendAuth = some ({ s with buf := b, resLen := 0, reqLen := 3 + s.user.length + s.pass.length, phase := .writing }, [.wrote ([1, UInt8.ofNat s.user.length] ++ s.user ++ [UInt8.ofNat s.pass.length] ++ s.pass)]) ∧ b.length = 64 := by
  obtain ⟨b0, h0, l0, t0⟩ := poke_prefix (b := s.buf) (p := []) (x := [1]) (off := 0) rfl rfl (by simp; omega)
  obtain ⟨b1, h1, l1, t1⟩ := poke_prefix (b := b0) (p := [1]) (x := [UInt8.ofNat s.user.length]) (off := 1) (by simpa using t0) rfl (by simp; omega)
  obtain ⟨b2, h2, l2, t2⟩ := poke_prefix (b := b1) (p := [1, UInt8.ofNat s.user.length]) (x := s.user) (off := 2) (by simpa using t1) rfl (by omega)
  obtain ⟨b3, h3, l3, t3⟩ := poke_prefix (b := b2) (p := [1, UInt8.ofNat s.user.length] ++ s.user) (x := [UInt8.ofNat s.pass.length]) (off := 2 + s.user.length) t2 (by simp; omega) (by simp; omega)
  obtain ⟨b4, h4, l4, t4⟩ := poke_prefix (b := b3) (p := [1, UInt8.ofNat s.user.length] ++ s.user ++ [UInt8.ofNat s.pass.length]) (x := s.pass) (off := 3 + s.user.length)
    (by have e : 2 + s.user.length + [UInt8.ofNat s.pass.length].length = 3 + s.user.length := by simp; omega
        rw [e] at t3; exact t3) (by simp; omega) (by omega)
  refine ⟨b4, ?_, by omega⟩
  have e : 1 + 1 + s.user.length + 1 + s.pass.length = 3 + s.user.length + s.pass.length := by omega
  simp only [S5.sendAuth, Option.bind_eq_bind, h0, h1, h2, h3, h4, Option.bind_some, e, t4]
  rfl

theorem readAuth_eq {u p : Bytes} (hu : u ≠ []) (hp : p ≠ []) (hl : u.length + p.length ≤ 60) : readAuth ([1, UInt8.ofNat u.length] ++ u ++ [UInt8.ofNat p.length] ++ p) = some (u, p) := by
  have h1 : 1 ≤ u.length := by cases u <;> simp_all
  have h2 : 1 ≤ p.length := by cases p <;> simp_all
  have e1 : (UInt8.ofNat u.length).toNat = u.length := ofNat_toNat_lt (by omega)
  have e2 : (UInt8.ofNat p.length).toNat = p.length := ofNat_toNat_lt (by omega)
  have e3 : [1, UInt8.ofNat u.length] ++ u ++ [UInt8.ofNat p.length] ++ p = 1 :: UInt8.ofNat u.length :: (u ++ (UInt8.ofNat p.length :: p)) := by simp
  rw [e3]
  simp only [readAuth, e1]
  rw [List.drop_left]
  simp only [e2]
  rw [if_pos ⟨h1, by simp, h2, trivial⟩, List.take_left]

theorem S5.sendRequest_name {s : S5} (hb : s.buf.length = 64) (hd : s.domain ≠ []) (hl : s.domain.length ≤ 57) :
    ∃ b, s.sendRequest = some ({ s with buf := b, resLen := 0, reqLen := 7 + s.domain.length, phase := .writing }, [.wrote ([5, 1, 0, 3, UInt8.ofNat s.domain.length] ++ s.domain ++ be 2 s.tport)]) ∧ b.length = 64 := by
  obtain ⟨b0, h0, l0, t0⟩ := poke_prefix (b := s.buf) (p := []) (x := [5]) (off := 0) rfl rfl (by simp; omega)
  obtain ⟨b1, h1, l1, t1⟩ := poke_prefix (b := b0) (p := [5]) (x := [1]) (off := 1) (by simpa using t0) rfl (by simp; omega)
  obtain ⟨b2, h2, l2, t2⟩ := poke_prefix (b := b1) (p := [5, 1]) (x := [0]) (off := 2) (by simpa using t1) rfl (by simp; omega)
  obtain ⟨b3, h3, l3, t3⟩ := poke_prefix (b := b2) (p := [5, 1, 0]) (x := [3]) (off := 3) (by simpa using t2) rfl (by simp; omega)
  have hm : min s.domain.length (64 - 7) = s.domain.length := by omega
  obtain ⟨b4, h4, l4, t4⟩ := poke_prefix (b := b3) (p := [5, 1, 0, 3]) (x := [UInt8.ofNat s.domain.length]) (off := 4) (by simpa using t3) rfl (by simp; omega)
  obtain ⟨b5, h5, l5, t5⟩ := poke_prefix (b := b4) (p := [5, 1, 0, 3, UInt8.ofNat s.domain.length]) (x := s.domain) (off := 5) (by simpa using t4) rfl (by omega)
  obtain ⟨b6, h6, l6, t6⟩ := poke_prefix (b := b5) (p := [5, 1, 0, 3, UInt8.ofNat s.domain.length] ++ s.domain) (x := be 2 s.tport) (off := 5 + s.domain.length) t5 (by simp; omega) (by simp [be_two]; omega)
  refine ⟨b6, ?_, by omega⟩
  have e : 5 + s.domain.length + (be 2 s.tport).length = 7 + s.domain.length := by simp [be_two]; omega
  rw [e] at t6
  simp only [S5.sendRequest, Option.bind_eq_bind, h0, h1, h2, Option.bind_some, if_pos hd, hm, List.take_length, h3, h4, h5, h6, t6]
  rfl

theorem readRequest_name {d : Bytes} {port : Nat} (hd : d ≠ []) (hl : d.length ≤ 57) (hp : port < 65536) : readRequest ([5, 1, 0, 3, UInt8.ofNat d.length] ++ d ++ be 2 port) = some (.name d, port) := by
  have h1 : 1 ≤ d.length := by cases d <;> simp_all
  have e1 : (UInt8.ofNat d.length).toNat = d.length := ofNat_toNat_lt (by omega)
  have e3 : [5, 1, 0, 3, UInt8.ofNat d.length] ++ d ++ be 2 port = 5 :: 1 :: 0 :: 3 :: UInt8.ofNat d.length :: (d ++ be 2 port) := by simp
  rw [e3]
  simp only [readRequest]
  rw [if_neg (by decide), if_neg (by decide), if_pos trivial]
  simp only [e1]
  rw [if_pos ⟨h1, by simp [be_two]⟩, List.take_left, List.drop_left, beVal_be_two hp]

theorem S5.sendRequest_ip4 {s : S5} {ip : Bytes} {port : Nat} (hb : s.buf.length = 64) (hd : s.domain = []) (ha : s.addr = (.ip4 ip, port)) (hi : ip.length = 4) :
    ∃ b, s.sendRequest = some ({ s with buf := b, resLen := 0, reqLen := 10, phase := .writing }, [.wrote ([5, 1, 0, 1] ++ ip ++ be 2 port)]) ∧ b.length = 64 := by
  obtain ⟨b0, h0, l0, t0⟩ := poke_prefix (b := s.buf) (p := []) (x := [5]) (off := 0) rfl rfl (by simp; omega)
  obtain ⟨b1, h1, l1, t1⟩ := poke_prefix (b := b0) (p := [5]) (x := [1]) (off := 1) (by simpa using t0) rfl (by simp; omega)
  obtain ⟨b2, h2, l2, t2⟩ := poke_prefix (b := b1) (p := [5, 1]) (x := [0]) (off := 2) (by simpa using t1) rfl (by simp; omega)
  obtain ⟨b3, h3, l3, t3⟩ := poke_prefix (b := b2) (p := [5, 1, 0]) (x := [1]) (off := 3) (by simpa using t2) rfl (by simp; omega)
  obtain ⟨b4, h4, l4, t4⟩ := poke_prefix (b := b3) (p := [5, 1, 0, 1]) (x := ip) (off := 4) (by simpa using t3) rfl (by omega)
  obtain ⟨b5, h5, l5, t5⟩ := poke_prefix (b := b4) (p := [5, 1, 0, 1] ++ ip) (x := be 2 port) (off := 8) (by rw [hi] at t4; exact t4) (by simp [hi]) (by simp [be_two]; omega)
  refine ⟨b5, ?_, by omega⟩
  have e : 8 + (be 2 port).length = 10 := by simp [be_two]
  rw [e] at t5
  simp only [S5.sendRequest, Option.bind_eq_bind, h0, h1, h2, Option.bind_some, if_neg (not_not_intro hd), ha, h3, h4, h5, t5]
  rfl

theorem readRequest_ip4 {ip : Bytes} {port : Nat} (hi : ip.length = 4) (hp : port < 65536) : readRequest ([5, 1, 0, 1] ++ ip ++ be 2 port) = some (.ip4 ip, port) := by
  have e3 : [5, 1, 0, 1] ++ ip ++ be 2 port = 5 :: 1 :: 0 :: 1 :: (ip ++ be 2 port) := by simp
  rw [e3]
  simp only [readRequest]
  rw [if_pos trivial, if_pos (by simp [be_two, hi])]
  rw [← hi, List.take_left, List.drop_left, beVal_be_two hp]

theorem S5.sendRequest_ip6 {s : S5} {ip : Bytes} {port : Nat} (hb : s.buf.length = 64) (hd : s.domain = []) (ha : s.addr = (.ip6 ip, port)) (hi : ip.length = 16) :
    ∃ b, s.sendRequest = some ({ s with buf := b, resLen := 0, reqLen := 22, phase := .writing }, [.wrote ([5, 1, 0, 4] ++ ip ++ be 2 port)]) ∧ b.length = 64 := by
  obtain ⟨b0, h0, l0, t0⟩ := poke_prefix (b := s.buf) (p := []) (x := [5]) (off := 0) rfl rfl (by simp; omega)
  obtain ⟨b1, h1, l1, t1⟩ := poke_prefix (b := b0) (p := [5]) (x := [1]) (off := 1) (by simpa using t0) rfl (by simp; omega)
  obtain ⟨b2, h2, l2, t2⟩ := poke_prefix (b := b1) (p := [5, 1]) (x := [0]) (off := 2) (by simpa using t1) rfl (by simp; omega)
  obtain ⟨b3, h3, l3, t3⟩ := poke_prefix (b := b2) (p := [5, 1, 0]) (x := [4]) (off := 3) (by simpa using t2) rfl (by simp; omega)
  obtain ⟨b4, h4, l4, t4⟩ := poke_prefix (b := b3) (p := [5, 1, 0, 4]) (x := ip) (off := 4) (by simpa using t3) rfl (by omega)
  obtain ⟨b5, h5, l5, t5⟩ := poke_prefix (b := b4) (p := [5, 1, 0, 4] ++ ip) (x := be 2 port) (off := 20) (by rw [hi] at t4; exact t4) (by simp [hi]) (by simp [be_two]; omega)
  refine ⟨b5, ?_, by omega⟩
  have e : 20 + (be 2 port).length = 22 := by simp [be_two]
  rw [e] at t5
  simp only [S5.sendRequest, Option.bind_eq_bind, h0, h1, h2, Option.bind_some, if_neg (not_not_intro hd), ha, h3, h4, h5, t5]
  rfl

theorem readRequest_ip6 {ip : Bytes} {port : Nat} (hi : ip.length = 16) (hp : port < 65536) : readRequest ([5, 1, 0, 4] ++ ip ++ be 2 port) = some (.ip6 ip, port) := by
  have e3 : [5, 1, 0, 4] ++ ip ++ be 2 port = 5 :: 1 :: 0 :: 4 :: (ip ++ be 2 port) := by simp
  rw [e3]
  simp only [readRequest]
  rw [if_neg (by decide), if_pos trivial, if_pos (by simp [be_two, hi])]
  rw [← hi, List.take_left, List.drop_left, beVal_be_two hp]

/-! ### The invariant -/

/-- The configured target is what send_request uses. -/
def S5.holds (s : S5) : SocksTarget × Nat → Prop
  | (.name d, port) => s.domain = d ∧ s.tport = port ∧ d ≠ [] ∧ d.length ≤ 57 ∧ port < 65536
  | (.ip4 ip, port) => s.domain = [] ∧ s.addr = (.ip4 ip, port) ∧ ip.length = 4 ∧ port < 65536
  | (.ip6 ip, port) => s.domain = [] ∧ s.addr = (.ip6 ip, port) ∧ ip.length = 16 ∧ port < 65536

theorem S5.sendRequest_holds {s : S5} {t : SocksTarget × Nat} (hb : s.buf.length = 64) (h : s.holds t) : ∃ b n bs, s.sendRequest = some ({ s with buf := b, resLen := 0, reqLen := n, phase := .writing }, [.wrote bs]) ∧ b.length = 64 ∧ readRequest bs = some t := by
  obtain ⟨t, port⟩ := t
  cases t with
  | name d =>
    obtain ⟨h1, h2, h3, h4, h5⟩ := h
    obtain ⟨b, k1, k2⟩ := S5.sendRequest_name hb (by rw [h1]; exact h3) (by rw [h1]; exact h4)
    exact ⟨b, _, _, k1, k2, by rw [h1, h2]; exact readRequest_name h3 h4 h5⟩
  | ip4 ip =>
    obtain ⟨h1, h2, h3, h4⟩ := h
    obtain ⟨b, k1, k2⟩ := S5.sendRequest_ip4 hb h1 h2 h3
    exact ⟨b, _, _, k1, k2, readRequest_ip4 h3 h4⟩
  | ip6 ip =>
    obtain ⟨h1, h2, h3, h4⟩ := h
    obtain ⟨b, k1, k2⟩ := S5.sendRequest_ip6 hb h1 h2 h3
    exact ⟨b, _, _, k1, k2, readRequest_ip6 h3 h4⟩

/-- Phase and step of the client against the ideal conversation. -/
def S5.Sync (s : S5) (c : S5Conf) : S5St → Prop
  | .free => s.phase = .free ∧ (s.step = -1 ↔ c.target = none)
  | .greeted acc => c.target ≠ none ∧ ((s.phase = .writing ∧ s.step = 0 ∧ acc = [] ∧ s.resLen = 0) ∨ (s.phase = .reading s.resLen ∧ s.step = 1 ∧ acc = s.buf.take s.resLen ∧ s.resLen < 64))
  | .authed acc => c.target ≠ none ∧ ((s.phase = .writing ∧ s.step = 1 ∧ acc = [] ∧ s.resLen = 0) ∨ (s.phase = .reading s.resLen ∧ s.step = 2 ∧ acc = s.buf.take s.resLen ∧ s.resLen < 64))
  | .asked acc => c.target ≠ none ∧ ((s.phase = .writing ∧ s.step = 2 ∧ acc = [] ∧ s.resLen = 0) ∨ (s.phase = .reading s.resLen ∧ s.step = 3 ∧ acc = s.buf.take s.resLen ∧ s.resLen < 64))

structure S5.Conf (s : S5) (c : S5Conf) : Prop where
  len : s.buf.length = 64
  noauth : c.auth = none → s.user = [] ∧ s.pass = []
  auth : ∀ u p, c.auth = some (u, p) → s.user = u ∧ s.pass = p ∧ u ≠ [] ∧ p ≠ [] ∧ u.length + p.length ≤ 60
  target : ∀ t, c.target = some t → s.holds t

theorem S5.Conf.authLen {s : S5} {c : S5Conf} (h : s.Conf c) : s.user.length + s.pass.length ≤ 60 := by
  cases hc : c.auth with
  | none => obtain ⟨h1, h2⟩ := h.noauth hc; simp [h1, h2]
  | some v => obtain ⟨h1, h2, _, _, h3⟩ := h.auth v.1 v.2 hc; rw [h1, h2]; exact h3

/-- The fields the configuration depends on. -/
theorem S5.Conf.congr {s s' : S5} {c : S5Conf} (h : s.Conf c) (h1 : s'.buf.length = 64) (h2 : s'.user = s.user) (h3 : s'.pass = s.pass) (h4 : s'.domain = s.domain) (h5 : s'.tport = s.tport) (h6 : s'.addr = s.addr) : s'.Conf c := by
  refine ⟨h1, by rw [h2, h3]; exact h.noauth, by rw [h2, h3]; exact h.auth, ?_⟩
  intro t ht
  have := h.target t ht
  obtain ⟨t, port⟩ := t
  cases t <;> simp only [S5.holds, h4, h5, h6] at this ⊢ <;> exact this

theorem take_two {b : Bytes} (h : b.length = 64) : ∃ x, b.take 2 = [x, b.getD 1 0] := by
  match b, h with
  | x :: y :: rest, _ => exact ⟨x, by simp⟩

/-- A decision for success is taken on the replies `takenReply` describes. -/
theorem S5.parse_ok {signed : Bool} {s : S5} (hb : s.buf.length = 64) (hr : s.resLen ≤ 64) (h : s.parse signed = .ok) : s.step = 3 ∧ takenReply signed (s.buf.take s.resLen) = true := by
  simp only [S5.parse] at h
  split at h
  · (repeat' split at h) <;> cases h
  · split at h
    · (repeat' split at h) <;> cases h
    · split at h
      · rename_i h3
        refine ⟨h3, ?_⟩
        split at h
        · cases h
        · rename_i h6
          split at h
          · rename_i h1
            obtain ⟨x0, x1, x2, x3, x4, x5, rest, hbuf⟩ : ∃ x0 x1 x2 x3 x4 x5 rest, s.buf = x0 :: x1 :: x2 :: x3 :: x4 :: x5 :: rest := by
              match hh : s.buf, hb with
              | x0 :: x1 :: x2 :: x3 :: x4 :: x5 :: rest, _ => exact ⟨x0, x1, x2, x3, x4, x5, rest, rfl⟩
            rw [hbuf] at h h1 hb
            obtain ⟨k, hk⟩ : ∃ k, s.resLen = k + 6 := ⟨s.resLen - 6, by omega⟩
            rw [hk] at h hr
            simp at hb
            have ht : s.buf.take s.resLen = x0 :: x1 :: x2 :: x3 :: x4 :: x5 :: rest.take k := by rw [hbuf, hk]; simp
            have hlen : (rest.take k).length = k := by simp; omega
            rw [ht]
            generalize rest.take k = q at hlen
            simp at h1
            subst h1
            simp only [List.getD_cons_succ, List.getD_cons_zero] at h
            simp only [takenReply, goodReply, List.getElem?_cons_succ, List.getElem?_cons_zero, Option.some.injEq, List.length_cons, hlen]
            by_cases e1 : x3 = 1
            · subst e1
              rw [if_pos rfl] at h
              have : k + 6 = 10 := by
                split at h
                · cases h
                · split at h
                  · cases h
                  · omega
              simp; omega
            · rw [if_neg e1] at h
              by_cases e3 : x3 = 3
              · subst e3
                rw [if_pos rfl] at h
                have hx : x4.toNat < 256 := x4.toNat_lt
                have : ((6 + (1 + charVal signed x4)) % 2 ^ 64).toNat = k + 6 := by
                  split at h
                  · cases h
                  · split at h
                    · cases h
                    · omega
                simp only [charVal] at this
                split at this
                · rename_i hs
                  have h255 : x4.toNat = 255 ∧ k = 0 := by omega
                  have : x4 = 255 := by
                    apply UInt8.toNat_inj.1
                    simp [h255.1]
                  subst this
                  simp [hs.1, h255.2]
                · have : x4.toNat + 7 = k + 6 := by omega
                  simp
                  left
                  omega
              · rw [if_neg e3] at h
                by_cases e4 : x3 = 4
                · subst e4
                  rw [if_pos rfl] at h
                  have : k + 6 = 22 := by
                    split at h
                    · cases h
                    · split at h
                      · cases h
                      · omega
                  simp; omega
                · rw [if_neg e4] at h
                  have : k = 0 := by
                    split at h
                    · cases h
                    · split at h
                      · cases h
                      · omega
                  simp [this, e1, e3, e4]
          · cases h
      · cases h

end StAsio
