import Verif.Model.FileClient
import Verif.Lemmas.FileTransfer
/-!
Sums over the links of file_client, what transmit_file does, and the invariant of histories.
-/
set_option autoImplicit false
namespace StAsio

theorem Fc.Run.trans {env : FcEnv} {p : Fc → FcAct → Bool} {s s1 s2 : Fc} {as bs : List FcAct} {es fs : List FcEv} (h1 : Fc.Run env p s as s1 es) (h2 : Fc.Run env p s1 bs s2 fs) : Fc.Run env p s (as ++ bs) s2 (es ++ fs) := by
  induction h2 with
  | nil => simpa using h1
  | snoc t1 t2 bs b gs gs' _ hp hs ih =>
    rw [← List.append_assoc, ← List.append_assoc]
    exact .snoc _ _ _ _ _ _ _ ih hp hs

theorem Fc.exec_run {env : FcEnv} {p : Fc → FcAct → Bool} {s s' : Fc} {as : List FcAct} {es : List FcEv} (h : Fc.exec env p s as = some (s', es)) : Fc.Run env p s as s' es := by
  induction as generalizing s es with
  | nil => simp only [Fc.exec, Option.some.injEq, Prod.mk.injEq] at h; obtain ⟨rfl, rfl⟩ := h; exact .nil _
  | cons a as ih =>
    simp only [Fc.exec] at h
    by_cases hp : p s a = true
    · rw [if_pos hp] at h
      cases hs : s.step env a with
      | none => simp [hs] at h
      | some r =>
        cases he : Fc.exec env p r.1 as with
        | none => simp [hs, he] at h
        | some q =>
          simp [hs, he] at h
          obtain ⟨rfl, rfl⟩ := h
          exact (Fc.Run.snoc s s r.1 [] a [] r.2 (.nil s) hp hs).trans (ih (s := r.1) (es := q.2) (by rw [he]))
    · rw [if_neg hp] at h; cases h

/-- Sum over the links, which are numbered from `i` on. -/
def FcLink.sumFrom (g : Nat → FcLink → Nat) : Nat → List FcLink → Nat
  | _, [] => 0
  | i, l :: ls => g i l + FcLink.sumFrom g (i + 1) ls

theorem FcLink.sumFrom_set (g : Nat → FcLink → Nat) {ls : List FcLink} {i j : Nat} {l : FcLink} (x : FcLink) (h : ls[j]? = some l) :
    FcLink.sumFrom g i (ls.set j x) + g (i + j) l = FcLink.sumFrom g i ls + g (i + j) x := by
  induction ls generalizing i j with
  | nil => simp at h
  | cons y ls ih =>
    cases j with
    | zero => simp at h; subst h; simp [FcLink.sumFrom]; omega
    | succ j =>
      have := ih (i := i + 1) (j := j) (by simpa using h)
      simp only [List.set_cons_succ, FcLink.sumFrom]
      rw [show i + (j + 1) = i + 1 + j by omega]
      omega

theorem FcLink.sumFrom_mono {g h : Nat → FcLink → Nat} (hgh : ∀ i l, g i l ≤ h i l) (i : Nat) (ls : List FcLink) : FcLink.sumFrom g i ls ≤ FcLink.sumFrom h i ls := by
  induction ls generalizing i with
  | nil => exact Nat.le_refl _
  | cons l ls ih => exact Nat.add_le_add (hgh i l) (ih (i + 1))

theorem FcLink.le_sumFrom (g : Nat → FcLink → Nat) {ls : List FcLink} {i j : Nat} {l : FcLink} (h : ls[j]? = some l) : g (i + j) l ≤ FcLink.sumFrom g i ls := by
  induction ls generalizing i j with
  | nil => simp at h
  | cons y ls ih =>
    cases j with
    | zero => simp at h; subst h; simp [FcLink.sumFrom]
    | succ j =>
      have := ih (i := i + 1) (j := j) (by simpa using h)
      simp only [FcLink.sumFrom]
      rw [show i + (j + 1) = i + 1 + j by omega]
      omega

theorem FcEnv.part_eq (env : FcEnv) (f i : Nat) : env.part f i = (partOf (env.len f) env.n i).2 := by
  rw [FcEnv.part, filePart_eq]; simp

/-- The parts of the links together have at most the length of the file. -/
theorem FcLink.sum_parts (env : FcEnv) (f : Nat) {i : Nat} {ls : List FcLink} (h : i + ls.length = env.n) : FcLink.sumFrom (fun j _ => env.part f j) i ls ≤ env.len f - env.len f / env.n * i := by
  induction ls generalizing i with
  | nil => simp [FcLink.sumFrom]
  | cons l ls ih =>
    simp only [FcLink.sumFrom, FcEnv.part_eq, partOf]
    simp only [List.length_cons] at h
    have h1 : env.len f / env.n * env.n ≤ env.len f := Nat.div_mul_le_self _ _
    have h2 : env.len f / env.n * (i + 1) ≤ env.len f / env.n * env.n := Nat.mul_le_mul_left _ (by omega)
    have h3 : env.len f / env.n * (i + 1) = env.len f / env.n * i + env.len f / env.n := by rw [Nat.mul_add, Nat.mul_one]
    have h4 := ih (i := i + 1) (by omega)
    simp only [FcEnv.part_eq, partOf] at h4
    split
    · rename_i h5
      have : ls = [] := List.eq_nil_of_length_eq_zero (by omega)
      subst this
      simp [FcLink.sumFrom]
    · omega

/-- What a link still has to move (at most). -/
def FcLink.pend (env : FcEnv) (i : Nat) (l : FcLink) : Nat := match l.ph with
  | .idle => 0
  | .getAsked => env.part l.f i
  | .putAsked => env.len l.f
  | .putOffered r => r
  | .getting r => r
  | .putting r => r

theorem FcLink.sum_pend_idle (env : FcEnv) {i : Nat} {ls : List FcLink} (h : ∀ l ∈ ls, l.ph = .idle) : FcLink.sumFrom (FcLink.pend env) i ls = 0 := by
  induction ls generalizing i with
  | nil => rfl
  | cons l ls ih =>
    simp only [FcLink.sumFrom, FcLink.pend, h l (by simp)]
    rw [ih (fun l hl => h l (by simp [hl]))]

/-- Links which are idle and are asked for a file they can open. -/
theorem FcLink.askFrom_get (env : FcEnv) {f i : Nat} {ls : List FcLink} (hc : ∀ j, env.can f j = true) (h : ∀ l ∈ ls, l.ph = .idle) :
    FcLink.askFrom env ⟨false, f⟩ i ls = (ls.map (fun l => { l with ph := .getAsked, f := f }), true) := by
  induction ls generalizing i with
  | nil => rfl
  | cons l ls ih =>
    have h1 := h l (by simp)
    simp [FcLink.askFrom, ih (fun l hl => h l (by simp [hl])), FcLink.ask, h1, hc]

theorem FcLink.askFrom_none (env : FcEnv) {f i : Nat} {ls : List FcLink} (hc : ∀ j, env.can f j = false) (h : ∀ l ∈ ls, l.ph = .idle) (hn : ls ≠ []) :
    FcLink.askFrom env ⟨false, f⟩ i ls = (ls, false) := by
  induction ls generalizing i with
  | nil => exact absurd rfl hn
  | cons l ls ih =>
    have h1 := h l (by simp)
    by_cases h2 : ls = []
    · subst h2; simp [FcLink.askFrom, FcLink.ask, h1, hc]
    · simp [FcLink.askFrom, ih (fun l hl => h l (by simp [hl])) h2, FcLink.ask, h1, hc]

theorem FcLink.askFrom_put_rest (env : FcEnv) {f i : Nat} {ls : List FcLink} (hi : 0 < i) : FcLink.askFrom env ⟨true, f⟩ i ls = (ls, true) := by
  induction ls generalizing i with
  | nil => rfl
  | cons l ls ih => simp [FcLink.askFrom, ih (by omega : 0 < i + 1), FcLink.ask, Nat.ne_of_gt hi]

theorem FcLink.sum_asked (env : FcEnv) {f i : Nat} {ls : List FcLink} :
    FcLink.sumFrom (FcLink.pend env) i (ls.map (fun l => { l with ph := .getAsked, f := f })) = FcLink.sumFrom (fun j _ => env.part f j) i ls := by
  induction ls generalizing i with
  | nil => rfl
  | cons l ls ih => simp only [List.map_cons, FcLink.sumFrom, ih]; rfl

theorem FcLink.sum_offered (env : FcEnv) {f i : Nat} {ls : List FcLink} :
    FcLink.sumFrom (FcLink.pend env) i (FcLink.offerFrom env f i ls) ≤ FcLink.sumFrom (fun j _ => env.part f j) i ls := by
  induction ls generalizing i with
  | nil => exact Nat.le_refl _
  | cons l ls ih =>
    simp only [FcLink.offerFrom, FcLink.sumFrom]
    refine Nat.add_le_add ?_ ih
    split <;> simp [FcLink.pend]

theorem FcLink.offerFrom_length (env : FcEnv) (f i : Nat) (ls : List FcLink) : (FcLink.offerFrom env f i ls).length = ls.length := by
  induction ls generalizing i with
  | nil => rfl
  | cons l ls ih => simp [FcLink.offerFrom, ih]

theorem FcLink.offerFrom_f (env : FcEnv) (f i : Nat) (ls : List FcLink) : ∀ l ∈ FcLink.offerFrom env f i ls, l.ph ≠ .idle → l.f = f := by
  induction ls generalizing i with
  | nil => intro l hl; cases hl
  | cons x ls ih =>
    intro l hl hp
    simp only [FcLink.offerFrom, List.mem_cons] at hl
    rcases hl with rfl | hl
    · split at hp
      · rename_i h; rw [if_pos h]
      · exact absurd rfl hp
    · exact ih _ l hl hp

theorem Fc.takeNext_idle (env : FcEnv) (hu : env.Uniform) (hn : 0 < env.n) {ls : List FcLink} (hl : ls.length = env.n) (h : ∀ l ∈ ls, l.ph = .idle) (rs : List FileReq) :
    ((Fc.takeNext env ls rs).2.2.2 = false ∧ (Fc.takeNext env ls rs).2.1 = ls ∧ ∀ fs, FcEv.rightFrom env none ((Fc.takeNext env ls rs).1 ++ fs) = FcEv.rightFrom env none fs) ∨
    ((Fc.takeNext env ls rs).2.2.2 = true ∧ ∃ r, (Fc.takeNext env ls rs).2.1.length = env.n ∧ (∀ l ∈ (Fc.takeNext env ls rs).2.1, l.ph ≠ .idle → l.f = r.f) ∧
      FcLink.sumFrom (FcLink.pend env) 0 (Fc.takeNext env ls rs).2.1 ≤ env.len r.f ∧ ∀ fs, FcEv.rightFrom env none ((Fc.takeNext env ls rs).1 ++ fs) = FcEv.rightFrom env (some (r, 0)) fs) := by
  induction rs with
  | nil => exact .inl ⟨rfl, rfl, fun fs => rfl⟩
  | cons r rs ih =>
    have hne : ls ≠ [] := by intro h0; subst h0; simp at hl; omega
    obtain ⟨put, f⟩ := r
    cases put with
    | false =>
      cases hc : env.can f 0 with
      | true =>
        have ha := FcLink.askFrom_get env (i := 0) (fun j => by rw [hu f j 0, hc]) h
        right
        simp only [Fc.takeNext, ha, if_true]
        refine ⟨trivial, ⟨false, f⟩, by simpa using hl, ?_, ?_, ?_⟩
        · intro l hl2 _
          simp only [List.mem_map] at hl2
          obtain ⟨x, _, rfl⟩ := hl2
          rfl
        · rw [FcLink.sum_asked]
          have := FcLink.sum_parts env f (i := 0) (ls := ls) (by omega)
          simpa using this
        · intro fs; simp [FcEv.rightFrom, hc]
      | false =>
        have ha := FcLink.askFrom_none env (i := 0) (fun j => by rw [hu f j 0, hc]) h hne
        simp only [Fc.takeNext, ha, Bool.false_eq_true, if_false, List.cons_append]
        simp only [FcEv.rightFrom, hc, Bool.not_false, Bool.true_and]
        exact ih
    | true =>
      right
      cases ls with
      | nil => exact absurd rfl hne
      | cons x ls =>
        have hx := h x (by simp)
        have ha : FcLink.askFrom env ⟨true, f⟩ 0 (x :: ls) = ({ x with ph := .putAsked, f := f } :: ls, true) := by
          simp [FcLink.askFrom, FcLink.askFrom_put_rest env (by omega : 0 < 0 + 1), FcLink.ask, hx]
        simp only [Fc.takeNext, ha, if_true]
        refine ⟨trivial, ⟨true, f⟩, by simpa using hl, ?_, ?_, ?_⟩
        · intro l hl2 hp
          simp only [List.mem_cons] at hl2
          rcases hl2 with rfl | hl2
          · rfl
          · exact absurd (h l (by simp [hl2])) hp
        · have : FcLink.sumFrom (FcLink.pend env) (0 + 1) ls = 0 := FcLink.sum_pend_idle env (fun l hl2 => h l (by simp [hl2]))
          simp only [FcLink.sumFrom, this]
          simp [FcLink.pend]
        · intro fs; simp [FcEv.rightFrom]

/-- How a state belongs to what the specification knows. -/
def Fc.Inv (env : FcEnv) (s : Fc) (c : Option (FileReq × Nat)) : Prop :=
  s.links.length = env.n ∧ match c with
  | none => s.timer = false ∧ s.spin = 0 ∧ ∀ l ∈ s.links, l.ph = .idle
  | some (r, m) => m = s.moved ∧ (s.timer = true ∧ s.spin = 0 ∨ s.timer = false ∧ s.spin = 1) ∧ (∀ l ∈ s.links, l.ph ≠ .idle → l.f = r.f) ∧
      s.moved + FcLink.sumFrom (FcLink.pend env) 0 s.links ≤ env.len r.f ∧ (s.size = none ∨ s.size = some (env.len r.f))

theorem Fc.isEnd_iff (s : Fc) : s.isEnd = true ↔ ∀ l ∈ s.links, l.ph = .idle := by
  simp [Fc.isEnd]

/-- One link goes on and moves `k` bytes. -/
theorem Fc.Inv.link {env : FcEnv} {s : Fc} {c : Option (FileReq × Nat)} (h : Fc.Inv env s c) {i : Nat} {l x : FcLink} {k : Nat} (hl : s.links[i]? = some l) (hp : l.ph ≠ .idle)
    (hx : x.ph ≠ .idle → x.f = l.f) (hk : x.pend env i + k ≤ l.pend env i) :
    ∃ r, c = some (r, s.moved) ∧ l.f = r.f ∧ s.moved + k ≤ env.len r.f ∧ ∀ t : Fc, t.links = s.links.set i x → t.timer = s.timer → t.spin = s.spin → t.moved = s.moved + k → (t.size = s.size ∨ t.size = some (env.len l.f)) → Fc.Inv env t (some (r, s.moved + k)) := by
  obtain ⟨h0, h1⟩ := h
  have hmem : l ∈ s.links := List.mem_of_getElem? hl
  cases c with
  | none => exact absurd (h1.2.2 l hmem) hp
  | some c =>
    obtain ⟨r, m⟩ := c
    obtain ⟨h2, h3, h4, h5, h6⟩ := h1
    subst h2
    have hf := h4 l hmem hp
    have hs := FcLink.sumFrom_set (FcLink.pend env) (i := 0) x hl
    simp only [Nat.zero_add] at hs
    refine ⟨r, rfl, hf, by omega, fun t e1 e2 e3 e4 e5 => ⟨by rw [e1]; simpa using h0, by rw [e4], by rw [e2, e3]; exact h3, ?_, ?_, ?_⟩⟩
    · intro y hy hyp
      rw [e1] at hy
      rcases List.mem_or_eq_of_mem_set hy with hy | rfl
      · exact h4 y hy hyp
      · rw [hx hyp, hf]
    · rw [e4, e1]; omega
    · rcases e5 with e5 | e5
      · rw [e5]; exact h6
      · right; rw [e5, hf]

theorem Fc.Inv.chunk {env : FcEnv} {s s' : Fc} {c : Option (FileReq × Nat)} (h : Fc.Inv env s c) {i rest : Nat} {l : FcLink} {good : Bool} {es : List FcEv} (hl : s.links[i]? = some l)
    (hp : l.ph = .putOffered rest ∨ l.ph = .putting rest) (hs : s.readChunk i l rest good = (s', es)) :
    ∃ c', Fc.Inv env s' c' ∧ ∀ fs, FcEv.rightFrom env c (es ++ fs) = FcEv.rightFrom env c' fs := by
  have hp0 : l.ph ≠ .idle := by rcases hp with hp | hp <;> rw [hp] <;> simp
  have hpe : l.pend env i = rest := by rcases hp with hp | hp <;> simp [FcLink.pend, hp]
  simp only [Fc.readChunk] at hs
  split at hs <;> cases hs
  · obtain ⟨r, rfl, hf, hk, h2⟩ := h.link (x := { l with ph := .putting (rest - min maxTransfer rest) }) (k := min maxTransfer rest) hl hp0 (fun _ => rfl) (by rw [hpe]; simp [FcLink.pend]; omega)
    refine ⟨_, h2 _ rfl rfl rfl rfl (.inl rfl), fun fs => ?_⟩
    simp [FcEv.rightFrom, hf, hk]
  · obtain ⟨r, rfl, hf, hk, h2⟩ := h.link (x := l.transEnd) (k := 0) hl hp0 (fun hh => absurd rfl hh) (by rw [hpe]; simp [FcLink.pend, FcLink.transEnd])
    exact ⟨_, h2 _ rfl rfl rfl rfl (.inl rfl), fun fs => rfl⟩

theorem Fc.step_inv {env : FcEnv} (hu : env.Uniform) (hn : 0 < env.n) {s s' : Fc} {a : FcAct} {es : List FcEv} {c : Option (FileReq × Nat)} (h : Fc.Inv env s c) (hp : s.noCommand a = true) (hs : s.step env a = some (s', es)) :
    ∃ c', Fc.Inv env s' c' ∧ ∀ fs, FcEv.rightFrom env c (es ++ fs) = FcEv.rightFrom env c' fs := by
  have ended : ∀ {i : Nat} {l : FcLink}, s.links[i]? = some l → l.ph ≠ .idle → ∃ c', Fc.Inv env { s with links := s.links.set i l.transEnd } c' ∧ ∀ fs, FcEv.rightFrom env c ([] ++ fs) = FcEv.rightFrom env c' fs := by
    intro i l hl hp0
    obtain ⟨r, rfl, hf, hk, h2⟩ := h.link (x := l.transEnd) (k := 0) hl hp0 (fun hh => absurd rfl hh) (by simp [FcLink.pend, FcLink.transEnd])
    exact ⟨_, h2 _ rfl rfl rfl rfl (.inl rfl), fun fs => rfl⟩
  cases a with
  | add rs =>
    simp only [Fc.step] at hs; cases hs
    refine ⟨c, ?_, fun fs => ?_⟩
    · obtain ⟨h0, h1⟩ := h
      exact ⟨h0, by cases c <;> exact h1⟩
    · cases c <;> simp [FcEv.rightFrom]
  | enter =>
    simp only [Fc.step] at hs
    simp only [Fc.noCommand, decide_eq_true_eq] at hp
    split at hs
    · cases hs
    split at hs
    · cases hs
      refine ⟨c, ?_, fun fs => rfl⟩
      obtain ⟨h0, h1⟩ := h
      exact ⟨h0, by cases c <;> exact h1⟩
    · rename_i ht
      obtain ⟨h0, h1⟩ := h
      cases c with
      | some c => obtain ⟨_, h3, _⟩ := h1; rcases h3 with h3 | h3 <;> simp_all
      | none =>
        obtain ⟨h1, h2, h3⟩ := h1
        rcases Fc.takeNext_idle env hu hn h0 h3 s.list with ⟨q1, q2, q3⟩ | ⟨q1, r, q2, q3, q4, q5⟩
        · have e : s'.links = s.links ∧ s'.timer = false ∧ s'.spin = s.spin ∧ es = (Fc.takeNext env s.links s.list).1 := by
            split at hs <;> cases hs <;> exact ⟨q2, q1, rfl, rfl⟩
          refine ⟨none, ⟨by rw [e.1]; exact h0, e.2.1, by rw [e.2.2.1, h2], by rw [e.1]; exact h3⟩, ?_⟩
          rw [e.2.2.2]; exact q3
        · have hne : s.list ≠ [] := by intro h9; rw [h9] at q1; cases q1
          rw [if_neg hne] at hs
          cases hs
          refine ⟨some (r, 0), ⟨q2, rfl, .inl ⟨q1, h2⟩, q3, by simpa using q4, .inl rfl⟩, q5⟩
  | info i ok =>
    simp only [Fc.step] at hs
    split at hs
    · rename_i l hl
      split at hs
      · rename_i hg
        have hp0 : l.ph ≠ .idle := by rw [hg.1]; simp
        split at hs
        · cases hs; exact ended hl hp0
        · cases hs
          obtain ⟨r, rfl, hf, hk, h2⟩ := h.link (x := if env.part l.f i > 0 then { l with ph := .getting (env.part l.f i) } else l.transEnd) (k := 0) hl hp0
            (fun _ => by split <;> rfl) (by by_cases hq : env.part l.f i > 0 <;> simp [FcLink.pend, FcLink.transEnd, hg.1, hq])
          exact ⟨_, h2 _ rfl rfl rfl rfl (by by_cases hi : i = 0 <;> simp [hi]), fun fs => rfl⟩
      · cases hs
    · cases hs
  | bytes i k =>
    simp only [Fc.step] at hs
    split at hs
    · rename_i l hl
      split at hs
      · rename_i rest hr
        split at hs
        · rename_i hk
          cases hs
          obtain ⟨r, rfl, hf, hk2, h2⟩ := h.link (x := { l with ph := .getting (rest - k) }) (k := k) hl (by rw [hr]; simp) (fun _ => rfl) (by simp only [FcLink.pend, hr]; omega)
          refine ⟨_, h2 _ rfl rfl rfl rfl (.inl rfl), fun fs => ?_⟩
          simp [FcEv.rightFrom, hf, hk2]
        · cases hs
      · cases hs
    · cases hs
  | over i =>
    simp only [Fc.step] at hs
    split at hs
    · rename_i l hl
      split at hs
      · rename_i hg; cases hs; exact ended hl (by rw [hg.1]; simp)
      · cases hs
    · cases hs
  | trunc i ok =>
    simp only [Fc.step] at hs
    split at hs
    · rename_i l hl
      split at hs
      · rename_i hg
        have hp0 : l.ph ≠ .idle := by rw [hg.1]; simp
        split at hs
        · cases hs; exact ended hl hp0
        · cases hs
          obtain ⟨h0, h1⟩ := h
          have hmem : l ∈ s.links := List.mem_of_getElem? hl
          cases c with
          | none => exact absurd (h1.2.2 l hmem) hp0
          | some c =>
            obtain ⟨r, m⟩ := c
            obtain ⟨h2, h3, h4, h5, h6⟩ := h1
            have hf := h4 l hmem hp0
            have hle := FcLink.le_sumFrom (FcLink.pend env) (i := 0) hl
            simp only [Nat.zero_add, FcLink.pend, hg.1] at hle
            rw [hf] at hle
            have hsum := FcLink.sum_parts env l.f (i := 0) (ls := s.links) (by omega)
            have hoff := FcLink.sum_offered env (f := l.f) (i := 0) (ls := s.links)
            have hle2 : FcLink.sumFrom (fun i l => FcLink.pend env i l) 0 s.links = FcLink.sumFrom (FcLink.pend env) 0 s.links := rfl
            simp only [FcLink.pend] at hle2
            refine ⟨some (r, m), ⟨by rw [FcLink.offerFrom_length]; exact h0, h2, h3, ?_, ?_, ?_⟩, fun fs => rfl⟩
            · intro y hy hyp; rw [FcLink.offerFrom_f env l.f 0 s.links y hy hyp, hf]
            · simp only [Nat.mul_zero, Nat.sub_zero] at hsum
              rw [hf] at hsum hoff ⊢
              simp only
              omega
            · simp only
              split
              · right; rw [hf]
              · exact h6
      · cases hs
    · cases hs
  | putReply i ok good =>
    simp only [Fc.step] at hs
    split at hs
    · rename_i l hl
      split at hs
      · rename_i rest hr
        split at hs
        · cases hs
        split at hs
        · cases hs; exact ended hl (by rw [hr]; simp)
        · simp only [Option.some.injEq] at hs; exact h.chunk hl (.inl hr) hs
      · cases hs
    · cases hs
  | sent i good =>
    simp only [Fc.step] at hs
    split at hs
    · rename_i l hl
      split at hs
      · rename_i rest hr
        split at hs
        · cases hs
        split at hs
        · cases hs; exact ended hl (by rw [hr]; simp)
        · simp only [Option.some.injEq] at hs; exact h.chunk hl (.inr hr) hs
      · cases hs
    · cases hs
  | lose i =>
    simp only [Fc.step] at hs
    split at hs
    · rename_i l hl
      split at hs
      · cases hs; exact ⟨c, h, fun fs => rfl⟩
      · rename_i hp0
        cases hs
        obtain ⟨r, rfl, hf, hk, h2⟩ := h.link (x := { l with stuck := true }) (k := 0) hl hp0 (fun _ => rfl) (by simp [FcLink.pend])
        exact ⟨_, h2 _ rfl rfl rfl rfl (.inl rfl), fun fs => rfl⟩
    · cases hs
  | tick =>
    simp only [Fc.step] at hs
    split at hs
    · cases hs
    · rename_i ht
      simp only [Bool.not_eq_false] at ht
      obtain ⟨h0, h1⟩ := h
      cases c with
      | none => rw [h1.1] at ht; cases ht
      | some c =>
        obtain ⟨r, m⟩ := c
        obtain ⟨h2, h3, h4, h5, h6⟩ := h1
        have hsp : s.spin = 0 := by rcases h3 with h3 | h3
                                    · exact h3.2
                                    · rw [h3.1] at ht; cases ht
        have quiet : ∀ t : Fc, t.links = s.links → t.timer = false → t.spin = s.spin → s.isEnd = true → Fc.Inv env t none := by
          intro t e1 e2 e3 e4
          exact ⟨by rw [e1]; exact h0, e2, by rw [e3, hsp], by rw [e1]; exact (Fc.isEnd_iff s).mp e4⟩
        have same : Fc.Inv env s (some (r, m)) := ⟨h0, h2, h3, h4, h5, h6⟩
        split at hs
        · split at hs <;> cases hs
          · rename_i he; exact ⟨none, quiet _ rfl rfl rfl he, fun fs => rfl⟩
          · exact ⟨_, same, fun fs => rfl⟩
        · rename_i n hsz
          split at hs
          · split at hs <;> cases hs
            · rename_i he; exact ⟨none, quiet _ rfl rfl rfl he, fun fs => rfl⟩
            · exact ⟨_, same, fun fs => rfl⟩
          · rename_i hm
            cases hs
            have : n = env.len r.f := by rcases h6 with h6 | h6 <;> rw [hsz] at h6 <;> cases h6; rfl
            refine ⟨some (r, m), ⟨h0, h2, .inr ⟨rfl, by simp only; omega⟩, h4, h5, h6⟩, fun fs => ?_⟩
            have : m = env.len r.f := by omega
            simp [FcEv.rightFrom, this]
  | spun =>
    simp only [Fc.step] at hs
    split at hs
    · rename_i he
      cases hs
      obtain ⟨h0, h1⟩ := h
      cases c with
      | none => rw [h1.2.1] at he; omega
      | some c =>
        obtain ⟨r, m⟩ := c
        obtain ⟨h2, h3, h4, h5, h6⟩ := h1
        refine ⟨none, ⟨h0, ?_, ?_, (Fc.isEnd_iff s).mp he.2⟩, fun fs => rfl⟩ <;> rcases h3 with h3 | h3 <;> simp only <;> (try exact h3.1) <;> omega
    · cases hs

end StAsio
