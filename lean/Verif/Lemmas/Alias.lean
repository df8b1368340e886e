/-
A checker for `Model/Alias.lean` and its soundness: if the checker accepts a program, then no execution of it ever changes an array
that was handed out before, and every array that is read has the contents it would have if arrays were values.
-/
import Mathlib.Data.List.Basic
import Mathlib.Tactic
import Verif.Model.Alias

namespace Extensisq

variable {V : Type}

/-- What is known about memory: pairs of different names that may refer to the same block; names that may refer to a block that was
handed out; names that may refer to a block that user code has seen; names that may show something else than their value; names that
may refer to the user's own arrays for results. A pair is left out if both names are in the second and third list: nothing more
can be learnt about them. -/
structure AAbs where
  al : List (ARef × ARef)
  pr : List ARef
  us : List ARef
  dr : List ARef
  ow : List ARef

/-- union of lists -/
def lUnion {α : Type} [DecidableEq α] (l m : List α) : List α := l ++ m.filter (fun x => x ∉ l)

theorem mem_lUnion {α : Type} [DecidableEq α] {l m : List α} {x : α} : x ∈ lUnion l m ↔ x ∈ l ∨ x ∈ m := by
  simp only [lUnion, List.mem_append, List.mem_filter, decide_eq_true_eq]
  by_cases h : x ∈ l <;> simp [h]

namespace AAbs

/-- `x` may refer to a block that was handed out and that user code has seen -/
def top (a : AAbs) (x : ARef) : Prop := x ∈ a.pr ∧ x ∈ a.us

instance (a : AAbs) (x : ARef) : Decidable (a.top x) := by unfold top; infer_instance

/-- leave out pairs that are not needed -/
def prune (a : AAbs) : AAbs := { a with al := a.al.filter (fun p => ¬ (a.top p.1 ∧ a.top p.2)) }

/-- `x` and `z` may refer to the same block -/
def lnk (a : AAbs) (x z : ARef) : Prop := (x, z) ∈ a.al ∨ (a.top x ∧ a.top z)

def join (a b : AAbs) : AAbs :=
  (⟨lUnion a.al b.al, lUnion a.pr b.pr, lUnion a.us b.us, lUnion a.dr b.dr, lUnion a.ow b.ow⟩ : AAbs).prune

def le (a b : AAbs) : Prop :=
  (∀ p ∈ a.al, p ∈ b.al ∨ (b.top p.1 ∧ b.top p.2)) ∧ (∀ x ∈ a.pr, x ∈ b.pr) ∧ (∀ x ∈ a.us, x ∈ b.us) ∧
    (∀ x ∈ a.dr, x ∈ b.dr) ∧ (∀ x ∈ a.ow, x ∈ b.ow)

instance (a b : AAbs) : Decidable (a.le b) := by unfold le; infer_instance

theorem le_top {a b : AAbs} (h : a.le b) {x : ARef} (hx : a.top x) : b.top x := ⟨h.2.1 x hx.1, h.2.2.1 x hx.2⟩
theorem le_lnk {a b : AAbs} (h : a.le b) {x z : ARef} (hx : a.lnk x z) : b.lnk x z := by
  rcases hx with hx | hx
  · exact h.1 _ hx
  · exact .inr ⟨le_top h hx.1, le_top h hx.2⟩

theorem le_refl (a : AAbs) : a.le a := ⟨fun _ h => .inl h, fun _ h => h, fun _ h => h, fun _ h => h, fun _ h => h⟩
theorem le_trans {a b c : AAbs} (h : a.le b) (h' : b.le c) : a.le c :=
  ⟨fun p hp => le_lnk h' (h.1 p hp), fun p hp => h'.2.1 p (h.2.1 p hp), fun p hp => h'.2.2.1 p (h.2.2.1 p hp),
   fun p hp => h'.2.2.2.1 p (h.2.2.2.1 p hp), fun p hp => h'.2.2.2.2 p (h.2.2.2.2 p hp)⟩
theorem le_prune (a : AAbs) : a.le a.prune := by
  refine ⟨fun p hp => ?_, fun _ h => h, fun _ h => h, fun _ h => h, fun _ h => h⟩
  by_cases ht : a.top p.1 ∧ a.top p.2
  · exact .inr ht
  · exact .inl (by simp only [prune, List.mem_filter]; exact ⟨hp, decide_eq_true ht⟩)
theorem le_join_left (a b : AAbs) : a.le (a.join b) :=
  le_trans ⟨fun _ h => .inl (mem_lUnion.2 (.inl h)), fun _ h => mem_lUnion.2 (.inl h), fun _ h => mem_lUnion.2 (.inl h),
    fun _ h => mem_lUnion.2 (.inl h), fun _ h => mem_lUnion.2 (.inl h)⟩ (le_prune _)
theorem le_join_right (a b : AAbs) : b.le (a.join b) :=
  le_trans ⟨fun _ h => .inl (mem_lUnion.2 (.inr h)), fun _ h => mem_lUnion.2 (.inr h), fun _ h => mem_lUnion.2 (.inr h),
    fun _ h => mem_lUnion.2 (.inr h), fun _ h => mem_lUnion.2 (.inr h)⟩ (le_prune _)

/-- forget all about `x` (it gets a new block) -/
def drop (a : AAbs) (x : ARef) : AAbs :=
  ⟨a.al.filter (fun p => p.1 ≠ x ∧ p.2 ≠ x), a.pr.filter (· ≠ x), a.us.filter (· ≠ x), a.dr.filter (· ≠ x), a.ow.filter (· ≠ x)⟩

/-- names that may refer to the block of `x` -/
def peers (a : AAbs) (x : ARef) : List ARef := (a.al.filter (fun p => p.1 = x)).map (·.2)

/-- `x` is treated like `z` in a list -/
def like (l : List ARef) (x z : ARef) : List ARef := if z ∈ l then x :: l else l

/-- `x = z` -/
def bind (a : AAbs) (x z : ARef) : AAbs :=
  if x = z then a else
    let d := a.drop x
    let ps := z :: d.peers z
    ⟨lUnion d.al (ps.map (fun w => (x, w)) ++ ps.map (fun w => (w, x))),
     like d.pr x z, like d.us x z, like d.dr x z, like d.ow x z⟩

/-- `x` is changed in place -/
def wrote (a : AAbs) (x : ARef) : AAbs := { a with dr := lUnion (a.dr.filter (· ≠ x)) (a.peers x) }

/-- user code sees `x` -/
def see (a : AAbs) (x : ARef) : AAbs := { a with us := lUnion a.us (x :: a.peers x) }

/-- `x` is handed out -/
def hand (a : AAbs) (x : ARef) : AAbs :=
  { a with pr := lUnion a.pr (x :: a.peers x), us := lUnion a.us (x :: a.peers x) }

/-- `x` is supplied by the user -/
def arg (a : AAbs) (x : ARef) : AAbs :=
  let d := a.drop x
  { d with pr := x :: d.pr, us := x :: d.us }

/-- `x = fun(t, z)` with a `fun` that may keep references -/
def callKeeps (a : AAbs) (x : ARef) : AAbs :=
  let d := a.drop x
  ⟨lUnion d.al (d.us.map (fun w => (x, w)) ++ d.us.map (fun w => (w, x))), x :: d.pr, x :: d.us, d.dr, x :: d.ow⟩

/-- `x = fun(t, z)` with a `fun` that fills its arrays again -/
def callReuses (a : AAbs) (x : ARef) : AAbs :=
  let d := ({ a with dr := lUnion a.dr a.ow } : AAbs).drop x
  ⟨lUnion d.al (d.ow.map (fun w => (x, w)) ++ d.ow.map (fun w => (w, x))), d.pr, x :: d.us, d.dr, x :: d.ow⟩

/-- `x = fun(t, z)` -/
def call (a : AAbs) : UserMode → ARef → AAbs
  | .fresh, x => a.drop x
  | .keeps, x => a.callKeeps x
  | .reuses, x => a.callReuses x

end AAbs

/-- Iterate the loop body until nothing new is found. -/
def aFix (f : AAbs → Option (AAbs × AAbs)) : ℕ → AAbs → Option (AAbs × AAbs)
  | 0, _ => none
  | n + 1, a =>
    match f a with
    | none => none
    | some r => if r.1.le a then some (a, r.2.join a) else aFix f n (a.join r.1)

/-- result of a single statement -/
def aStep (a b : AAbs) : AAbs × AAbs := (b.prune, a.join b.prune)

/-- The checker: `none` if an array that may have been handed out is written, or an array that may have been changed behind its name is
read; otherwise what is known at the end of the statement and at any point during it. -/
def aCheck (mode : UserMode) : AStmt → AAbs → Option (AAbs × AAbs)
  | .skip, a => some (a, a)
  | .alloc x rs, a => if ∀ r ∈ rs, r ∉ a.dr then some (aStep a (a.drop x)) else none
  | .bind x z, a => some (aStep a (a.bind x z))
  | .write x rs, a => if x ∉ a.pr ∧ ∀ r ∈ rs, r ∉ a.dr then some (aStep a (a.wrote x)) else none
  | .arg x, a => some (aStep a (a.arg x))
  | .call x z, a => if z ∉ a.dr then some (aStep a ((a.see z).call mode x)) else none
  | .hand x, a => if x ∉ a.dr then some (aStep a (a.hand x)) else none
  | .seq p q, a =>
    match aCheck mode p a with
    | none => none
    | some r =>
      match aCheck mode q r.1 with
      | none => none
      | some r' => some (r'.1, r.2.join r'.2)
  | .choice p q, a =>
    match aCheck mode p a with
    | none => none
    | some r =>
      match aCheck mode q a with
      | none => none
      | some r' => some (r.1.join r'.1, r.2.join r'.2)
  | .loop p, a => aFix (aCheck mode p) 30 a
  | .attempt p, a =>
    match aCheck mode p a with
    | none => none
    | some r => some (r.2, r.2)

/-- The checker accepts a whole program. -/
def aAccepts (mode : UserMode) (p : AStmt) : Bool := (aCheck mode p ⟨[], [], [], [], []⟩).isSome

/-- Memory agrees with what is known, everything handed out still has its contents, and all reads were right. -/
structure AInv (s : AState V) (a : AAbs) : Prop where
  al : ∀ x z b, s.env x = some b → s.env z = some b → x ≠ z → a.lnk x z
  pr : ∀ x b, s.env x = some b → s.given b ≠ none → x ∈ a.pr
  us : ∀ x b, s.env x = some b → s.known b → x ∈ a.us
  dr : ∀ x b, s.env x = some b → s.heap b ≠ s.val x → x ∈ a.dr
  ow : ∀ x b, s.env x = some b → s.own b = true → x ∈ a.ow
  env_lt : ∀ x b, s.env x = some b → b < s.next
  given_lt : ∀ b, s.given b ≠ none → b < s.next
  known_lt : ∀ b, s.known b → b < s.next
  own_lt : ∀ b, s.own b = true → b < s.next
  given_own : ∀ b, s.given b ≠ none → s.own b = false
  intact : ∀ b v, s.given b = some v → s.heap b = v
  ok : s.ok

theorem AInv.mono {s : AState V} {a b : AAbs} (h : AInv s a) (hab : a.le b) : AInv s b :=
  { h with
    al := fun x z c h1 h2 h3 => AAbs.le_lnk hab (h.al x z c h1 h2 h3)
    pr := fun x c h1 h2 => hab.2.1 _ (h.pr x c h1 h2)
    us := fun x c h1 h2 => hab.2.2.1 _ (h.us x c h1 h2)
    dr := fun x c h1 h2 => hab.2.2.2.1 _ (h.dr x c h1 h2)
    ow := fun x c h1 h2 => hab.2.2.2.2 _ (h.ow x c h1 h2) }

theorem AInv.start (h : ℕ → V) : AInv (AState.start h) ⟨[], [], [], [], []⟩ := by
  constructor <;> simp [AState.start]

theorem lnk_drop {a : AAbs} {x w w' : ARef} (h1 : w ≠ x) (h2 : w' ≠ x) (h : a.lnk w w') : (a.drop x).lnk w w' := by
  rcases h with h | h
  · left; simpa [AAbs.drop, h1, h2] using h
  · right; simpa [AAbs.drop, AAbs.top, h1, h2] using h

theorem mem_peers {a : AAbs} {x z : ARef} : z ∈ a.peers x ↔ (x, z) ∈ a.al := by
  simp [AAbs.peers]

theorem mem_drop_pr {a : AAbs} {x w : ARef} (h1 : w ≠ x) (h : w ∈ a.pr) : w ∈ (a.drop x).pr := by simpa [AAbs.drop, h1] using h
theorem mem_drop_us {a : AAbs} {x w : ARef} (h1 : w ≠ x) (h : w ∈ a.us) : w ∈ (a.drop x).us := by simpa [AAbs.drop, h1] using h
theorem mem_drop_dr {a : AAbs} {x w : ARef} (h1 : w ≠ x) (h : w ∈ a.dr) : w ∈ (a.drop x).dr := by simpa [AAbs.drop, h1] using h
theorem mem_drop_ow {a : AAbs} {x w : ARef} (h1 : w ≠ x) (h : w ∈ a.ow) : w ∈ (a.drop x).ow := by simpa [AAbs.drop, h1] using h

theorem AInv.use {s : AState V} {a : AAbs} (h : AInv s a) {x : ARef} (hx : x ∉ a.dr) : AInv (s.use x) a :=
  ⟨h.al, h.pr, h.us, h.dr, h.ow, h.env_lt, h.given_lt, h.known_lt, h.own_lt, h.given_own, h.intact,
    h.ok, fun b hb => by by_contra hc; exact hx (h.dr x b hb hc)⟩

theorem AInv.uses {a : AAbs} {rs : List ARef} : ∀ {s : AState V}, AInv s a → (∀ r ∈ rs, r ∉ a.dr) → AInv (rs.foldl AState.use s) a := by
  induction rs with
  | nil => intro s h _; exact h
  | cons r rs ih =>
    intro s h hr
    exact ih (h.use (hr r List.mem_cons_self)) (fun r' h' => hr r' (List.mem_cons_of_mem _ h'))

theorem foldl_use_env {rs : List ARef} : ∀ (s : AState V), (rs.foldl AState.use s).env = s.env := by
  induction rs with
  | nil => intro s; rfl
  | cons r rs ih => intro s; exact ih (s.use r)

/-- a name is bound to a block whose contents is its value -/
theorem AInv.new {s : AState V} {a : AAbs} (h : AInv s a) (x : ARef) (v : V) : AInv (s.new x v) (a.drop x) := by
  have ne : ∀ z b, s.env z = some b → b ≠ s.next := fun z b hz => (h.env_lt z b hz).ne
  have gn : s.given s.next = none := by
    by_contra hc; exact absurd (h.given_lt _ hc) (lt_irrefl _)
  have kn : ¬ s.known s.next := fun hc => absurd (h.known_lt _ hc) (lt_irrefl _)
  have on : s.own s.next ≠ true := fun hc => absurd (h.own_lt _ hc) (lt_irrefl _)
  constructor
  · intro x' z b h1 h2 h3
    simp only [AState.new, AState.setHeap, AState.setEnv] at h1 h2
    by_cases hx : x' = x
    · by_cases hz : z = x
      · exact absurd (hx.trans hz.symm) h3
      · rw [if_pos hx] at h1; rw [if_neg hz] at h2
        cases h1; exact absurd rfl (ne z _ h2)
    · by_cases hz : z = x
      · rw [if_neg hx] at h1; rw [if_pos hz] at h2
        cases h2; exact absurd rfl (ne x' _ h1)
      · rw [if_neg hx] at h1; rw [if_neg hz] at h2
        exact lnk_drop hx hz (h.al x' z b h1 h2 h3)
  · intro x' b h1 h2
    simp only [AState.new, AState.setHeap, AState.setEnv] at h1 h2
    by_cases hx : x' = x
    · rw [if_pos hx] at h1; cases h1; exact absurd gn h2
    · rw [if_neg hx] at h1; exact mem_drop_pr hx (h.pr x' b h1 h2)
  · intro x' b h1 h2
    simp only [AState.new, AState.setHeap, AState.setEnv] at h1 h2
    by_cases hx : x' = x
    · rw [if_pos hx] at h1; cases h1; exact absurd h2 kn
    · rw [if_neg hx] at h1; exact mem_drop_us hx (h.us x' b h1 h2)
  · intro x' b h1 h2
    simp only [AState.new, AState.setHeap, AState.setEnv] at h1 h2
    by_cases hx : x' = x
    · rw [if_pos hx] at h1; cases h1; rw [if_pos rfl, if_pos hx] at h2; exact absurd rfl h2
    · rw [if_neg hx] at h1; rw [if_neg (ne x' b h1), if_neg hx] at h2
      exact mem_drop_dr hx (h.dr x' b h1 h2)
  · intro x' b h1 h2
    simp only [AState.new, AState.setHeap, AState.setEnv] at h1 h2
    by_cases hx : x' = x
    · rw [if_pos hx] at h1; cases h1; exact absurd h2 on
    · rw [if_neg hx] at h1; exact mem_drop_ow hx (h.ow x' b h1 h2)
  · intro x' b h1
    simp only [AState.new, AState.setHeap, AState.setEnv] at h1 ⊢
    by_cases hx : x' = x
    · rw [if_pos hx] at h1; cases h1; omega
    · rw [if_neg hx] at h1; have := h.env_lt x' b h1; omega
  · intro b hb; have := h.given_lt b hb; simp only [AState.new]; omega
  · intro b hb; have := h.known_lt b hb; simp only [AState.new]; omega
  · intro b hb; have := h.own_lt b hb; simp only [AState.new]; omega
  · exact h.given_own
  · intro b w hb
    simp only [AState.new, AState.setHeap, AState.setEnv] at hb ⊢
    have : b ≠ s.next := by rintro rfl; rw [gn] at hb; cases hb
    rw [if_neg this]; exact h.intact b w hb
  · exact h.ok

theorem mem_like {l : List ARef} {x z : ARef} (h : z ∈ l) : x ∈ AAbs.like l x z := by
  rw [AAbs.like, if_pos h]; exact List.mem_cons_self
theorem mem_like_of {l : List ARef} {x z w : ARef} (h : w ∈ l) : w ∈ AAbs.like l x z := by
  rw [AAbs.like]; split_ifs
  · exact List.mem_cons_of_mem _ h
  · exact h

theorem AInv.bind {s : AState V} {a : AAbs} (h : AInv s a) (x z : ARef) :
    AInv (s.setEnv x (s.env z) (s.val z)) (a.bind x z) := by
  by_cases hxz : x = z
  · subst hxz
    have : s.setEnv x (s.env x) (s.val x) = s := by
      cases s; simp only [AState.setEnv]; congr 1
      · funext w; split_ifs with hw
        · rw [hw]
        · rfl
      · funext w; split_ifs with hw
        · rw [hw]
        · rfl
    rw [this]; simpa [AAbs.bind] using h
  · have hzx : z ≠ x := Ne.symm hxz
    have key : ∀ w b, w ≠ x → s.env w = some b → s.env z = some b → w = z ∨ (a.drop x).lnk z w := by
      intro w b hw h1 h2
      by_cases hwz : w = z
      · exact .inl hwz
      · exact .inr (lnk_drop hzx hw (h.al z w b h2 h1 (Ne.symm hwz)))
    have tp : ∀ w, (a.drop x).top w → (a.bind x z).top w := by
      intro w hw; simp only [AAbs.bind, if_neg hxz, AAbs.top]
      exact ⟨mem_like_of hw.1, mem_like_of hw.2⟩
    have tx : (a.drop x).top z → (a.bind x z).top x := by
      intro hw; simp only [AAbs.bind, if_neg hxz, AAbs.top]
      exact ⟨mem_like hw.1, mem_like hw.2⟩
    have dr : ∀ w w', (a.drop x).lnk w w' → (a.bind x z).lnk w w' := by
      intro w w' hp
      rcases hp with hp | hp
      · left; simp only [AAbs.bind, if_neg hxz]; exact mem_lUnion.2 (.inl hp)
      · exact .inr ⟨tp w hp.1, tp w' hp.2⟩
    constructor
    · intro x' z' b h1 h2 h3
      simp only [AState.setEnv] at h1 h2
      by_cases hx : x' = x
      · have hz : z' ≠ x := fun hh => h3 (hx.trans hh.symm)
        rw [if_pos hx] at h1; rw [if_neg hz] at h2
        subst hx
        have in1 : z' ∈ z :: (a.drop x').peers z → (a.bind x' z).lnk x' z' := by
          intro h4; left
          simp only [AAbs.bind, if_neg hxz]
          exact mem_lUnion.2 (.inr (List.mem_append.2 (.inl (List.mem_map.2 ⟨z', h4, rfl⟩))))
        rcases key z' b hz h2 h1 with h4 | h4 | h4
        · exact in1 (h4 ▸ List.mem_cons_self)
        · exact in1 (List.mem_cons_of_mem _ (mem_peers.2 h4))
        · exact .inr ⟨tx h4.1, tp z' h4.2⟩
      · by_cases hz : z' = x
        · rw [if_neg hx] at h1; rw [if_pos hz] at h2
          subst hz
          have in2 : x' ∈ z :: (a.drop z').peers z → (a.bind z' z).lnk x' z' := by
            intro h4; left
            simp only [AAbs.bind, if_neg hxz]
            exact mem_lUnion.2 (.inr (List.mem_append.2 (.inr (List.mem_map.2 ⟨x', h4, rfl⟩))))
          rcases key x' b hx h1 h2 with h4 | h4 | h4
          · exact in2 (h4 ▸ List.mem_cons_self)
          · exact in2 (List.mem_cons_of_mem _ (mem_peers.2 h4))
          · exact .inr ⟨tp x' h4.2, tx h4.1⟩
        · rw [if_neg hx] at h1; rw [if_neg hz] at h2
          exact dr _ _ (lnk_drop hx hz (h.al x' z' b h1 h2 h3))
    · intro x' b h1 h2
      simp only [AState.setEnv] at h1 h2
      simp only [AAbs.bind, if_neg hxz]
      by_cases hx : x' = x
      · rw [if_pos hx] at h1; rw [hx]; exact mem_like (mem_drop_pr hzx (h.pr z b h1 h2))
      · rw [if_neg hx] at h1; exact mem_like_of (mem_drop_pr hx (h.pr x' b h1 h2))
    · intro x' b h1 h2
      simp only [AState.setEnv] at h1 h2
      simp only [AAbs.bind, if_neg hxz]
      by_cases hx : x' = x
      · rw [if_pos hx] at h1; rw [hx]; exact mem_like (mem_drop_us hzx (h.us z b h1 h2))
      · rw [if_neg hx] at h1; exact mem_like_of (mem_drop_us hx (h.us x' b h1 h2))
    · intro x' b h1 h2
      simp only [AState.setEnv] at h1 h2
      simp only [AAbs.bind, if_neg hxz]
      by_cases hx : x' = x
      · rw [if_pos hx] at h1 h2; rw [hx]; exact mem_like (mem_drop_dr hzx (h.dr z b h1 h2))
      · rw [if_neg hx] at h1 h2; exact mem_like_of (mem_drop_dr hx (h.dr x' b h1 h2))
    · intro x' b h1 h2
      simp only [AState.setEnv] at h1 h2
      simp only [AAbs.bind, if_neg hxz]
      by_cases hx : x' = x
      · rw [if_pos hx] at h1; rw [hx]; exact mem_like (mem_drop_ow hzx (h.ow z b h1 h2))
      · rw [if_neg hx] at h1; exact mem_like_of (mem_drop_ow hx (h.ow x' b h1 h2))
    · intro x' b h1
      simp only [AState.setEnv] at h1
      by_cases hx : x' = x
      · rw [if_pos hx] at h1; exact h.env_lt z b h1
      · rw [if_neg hx] at h1; exact h.env_lt x' b h1
    · exact h.given_lt
    · exact h.known_lt
    · exact h.own_lt
    · exact h.given_own
    · exact h.intact
    · exact h.ok

theorem AInv.write {s : AState V} {a : AAbs} (h : AInv s a) {x : ARef} {b : ℕ} (hb : s.env x = some b) (hx : x ∉ a.pr) (v : V) :
    AInv ((s.setHeap b v).setEnv x (some b) v) (a.wrote x) := by
  have env : ∀ z, ((s.setHeap b v).setEnv x (some b) v).env z = s.env z := by
    intro z; simp only [AState.setEnv, AState.setHeap]; split_ifs with hz
    · rw [hz, hb]
    · rfl
  refine ⟨?_, ?_, ?_, ?_, ?_, ?_, h.given_lt, h.known_lt, h.own_lt, h.given_own, ?_, h.ok⟩
  · intro x' z c h1 h2 h3; rw [env] at h1 h2; exact h.al x' z c h1 h2 h3
  · intro x' c h1 h2; rw [env] at h1; exact h.pr x' c h1 h2
  · intro x' c h1 h2; rw [env] at h1; exact h.us x' c h1 h2
  · intro x' c h1 h2; rw [env] at h1
    simp only [AState.setEnv, AState.setHeap] at h2
    by_cases hxx : x' = x
    · subst hxx
      rw [h1] at hb; cases hb
      rw [if_pos rfl, if_pos rfl] at h2; exact absurd rfl h2
    · rw [if_neg hxx] at h2
      by_cases hc : c = b
      · subst hc
        refine mem_lUnion.2 (.inr ?_)
        rcases h.al x x' c hb h1 (Ne.symm hxx) with h4 | h4
        · exact mem_peers.2 h4
        · exact absurd h4.1.1 hx
      · rw [if_neg hc] at h2
        exact mem_lUnion.2 (.inl (by simpa [hxx] using h.dr x' c h1 h2))
  · intro x' c h1 h2; rw [env] at h1; exact h.ow x' c h1 h2
  · intro x' c h1; rw [env] at h1; exact h.env_lt x' c h1
  · intro c w hc
    have hne : c ≠ b := by
      rintro rfl
      exact hx (h.pr x c hb (by simp only [AState.setHeap, AState.setEnv] at hc; rw [hc]; simp))
    simp only [AState.setHeap, AState.setEnv, if_neg hne] at hc ⊢
    exact h.intact c w hc

/-- names that refer to the block of `x` -/
theorem AInv.mates {s : AState V} {a : AAbs} (h : AInv s a) {x z : ARef} {b : ℕ} (hx : s.env x = some b) (hz : s.env z = some b) :
    z ∈ x :: a.peers x ∨ a.top z := by
  by_cases e : z = x
  · exact .inl (e ▸ List.mem_cons_self)
  · rcases h.al x z b hx hz (Ne.symm e) with h1 | h1
    · exact .inl (List.mem_cons_of_mem _ (mem_peers.2 h1))
    · exact .inr h1.2

theorem AInv.see {s : AState V} {a : AAbs} (h : AInv s a) (x : ARef) : AInv (s.see x) (a.see x) := by
  refine ⟨fun x' z b h1 h2 h3 => ?_, h.pr, ?_, h.dr, h.ow, h.env_lt, h.given_lt, ?_, h.own_lt, h.given_own, h.intact, h.ok⟩
  · rcases h.al x' z b h1 h2 h3 with h4 | h4
    · exact .inl h4
    · exact .inr ⟨⟨h4.1.1, mem_lUnion.2 (.inl h4.1.2)⟩, ⟨h4.2.1, mem_lUnion.2 (.inl h4.2.2)⟩⟩
  · intro z b h1 h2
    simp only [AState.see] at h1 h2
    rcases h2 with h2 | h2
    · exact mem_lUnion.2 (.inl (h.us z b h1 h2))
    · rcases h.mates h2 h1 with h4 | h4
      · exact mem_lUnion.2 (.inr h4)
      · exact mem_lUnion.2 (.inl h4.2)
  · intro b hb
    simp only [AState.see] at hb
    rcases hb with hb | hb
    · exact h.known_lt b hb
    · exact h.env_lt x b hb

theorem AInv.give {s : AState V} {a : AAbs} (h : AInv s a) {x : ARef} {b : ℕ} (hx : s.env x = some b) :
    AInv (s.giveBlock b) (a.hand x) := by
  have hb := h.env_lt x b hx
  refine ⟨fun x' z c h1 h2 h3 => ?_, ?_, ?_, h.dr, h.ow, h.env_lt, ?_, ?_, h.own_lt, ?_, ?_, h.ok⟩
  · rcases h.al x' z c h1 h2 h3 with h4 | h4
    · exact .inl h4
    · exact .inr ⟨⟨mem_lUnion.2 (.inl h4.1.1), mem_lUnion.2 (.inl h4.1.2)⟩,
        ⟨mem_lUnion.2 (.inl h4.2.1), mem_lUnion.2 (.inl h4.2.2)⟩⟩
  · intro z c h1 h2
    simp only [AState.giveBlock] at h1 h2
    by_cases e : c = b
    · subst e
      rcases h.mates hx h1 with h4 | h4
      · exact mem_lUnion.2 (.inr h4)
      · exact mem_lUnion.2 (.inl h4.1)
    · rw [if_neg (fun hh => e hh.1)] at h2
      exact mem_lUnion.2 (.inl (h.pr z c h1 h2))
  · intro z c h1 h2
    simp only [AState.giveBlock] at h1 h2
    rcases h2 with h2 | h2
    · exact mem_lUnion.2 (.inl (h.us z c h1 h2))
    · subst h2
      rcases h.mates hx h1 with h4 | h4
      · exact mem_lUnion.2 (.inr h4)
      · exact mem_lUnion.2 (.inl h4.2)
  · intro c hc
    simp only [AState.giveBlock] at hc
    by_cases e : c = b
    · rw [e]; exact hb
    · rw [if_neg (fun hh => e hh.1)] at hc; exact h.given_lt c hc
  · intro c hc
    simp only [AState.giveBlock] at hc
    rcases hc with hc | hc
    · exact h.known_lt c hc
    · rw [hc]; exact hb
  · intro c hc
    simp only [AState.giveBlock] at hc ⊢
    split_ifs at hc with e
    · exact e.2.2
    · exact h.given_own c hc
  · intro c v hc
    simp only [AState.giveBlock] at hc ⊢
    split_ifs at hc with e
    · cases hc; rw [e.1]
    · exact h.intact c v hc

/-- an array of the user is supplied -/
theorem AInv.arg {s : AState V} {a : AAbs} (h : AInv s a) (x : ARef) (v : V) :
    AInv ((s.new x v).giveBlock s.next) (a.arg x) := by
  have hn := h.new x v
  have hx : (s.new x v).env x = some s.next := by simp [AState.new, AState.setHeap, AState.setEnv]
  have pe : ∀ w, w ∈ (a.drop x).peers x → False := by
    intro w hw; have := mem_peers.1 hw; simp [AAbs.drop] at this
  refine (hn.give hx).mono ⟨fun p hp => .inl hp, ?_, ?_, fun _ h => h, fun _ h => h⟩
  · intro w hw
    rcases mem_lUnion.1 hw with hw | hw
    · exact List.mem_cons_of_mem _ hw
    · rcases List.mem_cons.1 hw with hw | hw
      · exact hw ▸ List.mem_cons_self
      · exact (pe w hw).elim
  · intro w hw
    rcases mem_lUnion.1 hw with hw | hw
    · exact List.mem_cons_of_mem _ hw
    · rcases List.mem_cons.1 hw with hw | hw
      · exact hw ▸ List.mem_cons_self
      · exact (pe w hw).elim

/-- a name is bound to an existing block that only names in the list `l` refer to -/
theorem AInv.setEnv {s : AState V} {a : AAbs} (h : AInv s a) (x : ARef) (b : ℕ) (hlt : b < s.next) (l : List ARef)
    (hl : ∀ w, w ≠ x → s.env w = some b → w ∈ l) (pr' : List ARef)
    (hp : s.given b ≠ none → x ∈ pr') (hpp : ∀ w ∈ (a.drop x).pr, w ∈ pr') (us' : List ARef)
    (hu : s.known b → x ∈ us') (huu : ∀ w ∈ (a.drop x).us, w ∈ us') :
    AInv (s.setEnv x (some b) (s.heap b))
      ⟨lUnion (a.drop x).al (l.map (fun w => (x, w)) ++ l.map (fun w => (w, x))), pr', us', (a.drop x).dr, x :: (a.drop x).ow⟩ := by
  constructor
  · intro x' z' c h1 h2 h3
    simp only [AState.setEnv] at h1 h2
    by_cases hx : x' = x
    · have hz : z' ≠ x := fun hh => h3 (hx.trans hh.symm)
      rw [if_pos hx] at h1; rw [if_neg hz] at h2
      cases h1
      refine .inl (mem_lUnion.2 (.inr (List.mem_append.2 (.inl ?_))))
      exact List.mem_map.2 ⟨z', hl z' hz h2, by rw [hx]⟩
    · by_cases hz : z' = x
      · rw [if_neg hx] at h1; rw [if_pos hz] at h2
        cases h2
        refine .inl (mem_lUnion.2 (.inr (List.mem_append.2 (.inr ?_))))
        exact List.mem_map.2 ⟨x', hl x' hx h1, by rw [hz]⟩
      · rw [if_neg hx] at h1; rw [if_neg hz] at h2
        rcases lnk_drop hx hz (h.al x' z' c h1 h2 h3) with h4 | h4
        · exact .inl (mem_lUnion.2 (.inl h4))
        · exact .inr ⟨⟨hpp _ h4.1.1, huu _ h4.1.2⟩, ⟨hpp _ h4.2.1, huu _ h4.2.2⟩⟩
  · intro x' c h1 h2
    simp only [AState.setEnv] at h1 h2
    by_cases hx : x' = x
    · rw [if_pos hx] at h1; cases h1; rw [hx]; exact hp h2
    · rw [if_neg hx] at h1; exact hpp _ (mem_drop_pr hx (h.pr x' c h1 h2))
  · intro x' c h1 h2
    simp only [AState.setEnv] at h1 h2
    by_cases hx : x' = x
    · rw [if_pos hx] at h1; cases h1; rw [hx]; exact hu h2
    · rw [if_neg hx] at h1; exact huu _ (mem_drop_us hx (h.us x' c h1 h2))
  · intro x' c h1 h2
    simp only [AState.setEnv] at h1 h2
    by_cases hx : x' = x
    · rw [if_pos hx] at h1 h2; cases h1; exact absurd rfl h2
    · rw [if_neg hx] at h1 h2; exact mem_drop_dr hx (h.dr x' c h1 h2)
  · intro x' c h1 h2
    simp only [AState.setEnv] at h1 h2
    by_cases hx : x' = x
    · rw [hx]; exact List.mem_cons_self
    · rw [if_neg hx] at h1; exact List.mem_cons_of_mem _ (mem_drop_ow hx (h.ow x' c h1 h2))
  · intro x' c h1
    simp only [AState.setEnv] at h1
    by_cases hx : x' = x
    · rw [if_pos hx] at h1; cases h1; exact hlt
    · rw [if_neg hx] at h1; exact h.env_lt x' c h1
  · exact h.given_lt
  · exact h.known_lt
  · exact h.own_lt
  · exact h.given_own
  · exact h.intact
  · exact h.ok

/-- the user fills the own arrays again -/
theorem AInv.refill {s : AState V} {a : AAbs} (h : AInv s a) (g : ℕ → V) :
    AInv (s.refill g) { a with dr := lUnion a.dr a.ow } := by
  refine ⟨h.al, h.pr, h.us, ?_, h.ow, h.env_lt, h.given_lt, h.known_lt, h.own_lt, h.given_own, ?_, h.ok⟩
  · intro x b h1 h2
    simp only [AState.refill] at h1 h2
    by_cases ho : s.own b = true
    · exact mem_lUnion.2 (.inr (h.ow x b h1 ho))
    · rw [if_neg ho] at h2; exact mem_lUnion.2 (.inl (h.dr x b h1 h2))
  · intro b v hb
    simp only [AState.refill] at hb ⊢
    have := h.given_own b (by rw [hb]; simp)
    rw [this]; simpa using h.intact b v hb

theorem AInv.makeOwn {s : AState V} {a : AAbs} (h : AInv s a) (x : ARef) (b : ℕ) (hlt : b < s.next) (hg : s.given b = none)
    (hx : ∀ w, s.env w = some b → w = x) :
    AInv (s.makeOwn b) { a with ow := x :: a.ow } := by
  refine ⟨h.al, h.pr, h.us, h.dr, ?_, h.env_lt, h.given_lt, h.known_lt, ?_, ?_, h.intact, h.ok⟩
  · intro w c h1 h2
    simp only [AState.makeOwn] at h1 h2
    by_cases hc : c = b
    · subst hc; rw [hx w h1]; exact List.mem_cons_self
    · rw [if_neg hc] at h2; exact List.mem_cons_of_mem _ (h.ow w c h1 h2)
  · intro c hc
    simp only [AState.makeOwn] at hc
    by_cases e : c = b
    · rw [e]; exact hlt
    · rw [if_neg e] at hc; exact h.own_lt c hc
  · intro c hc
    simp only [AState.makeOwn] at hc ⊢
    have : c ≠ b := by rintro rfl; exact hc hg
    rw [if_neg this]; exact h.given_own c hc

theorem AInv.callNew {s : AState V} {a : AAbs} (h : AInv s a) (x : ARef) (v : V) :
    AInv ((s.new x v).giveBlock s.next) (a.callKeeps x) := by
  refine (h.arg x v).mono ⟨fun p hp => .inl (mem_lUnion.2 (.inl hp)), fun _ h => h, fun _ h => h, fun _ h => h,
    fun _ h => List.mem_cons_of_mem _ h⟩

theorem AInv.callKnown {s : AState V} {a : AAbs} (h : AInv s a) (x : ARef) (b : ℕ) (hb : s.known b) :
    AInv (s.setEnv x (some b) (s.heap b)) (a.callKeeps x) :=
  h.setEnv x b (h.known_lt b hb) (a.drop x).us (fun w hw h1 => mem_drop_us hw (h.us w b h1 hb)) (x :: (a.drop x).pr)
    (fun _ => List.mem_cons_self) (fun _ h => List.mem_cons_of_mem _ h) (x :: (a.drop x).us)
    (fun _ => List.mem_cons_self) (fun _ h => List.mem_cons_of_mem _ h)

theorem AInv.callOwn {s : AState V} {a : AAbs} (h : AInv s a) (x : ARef) (v : V) (g : ℕ → V) :
    AInv (((s.refill g).new x v).makeOwn s.next) (a.callReuses x) := by
  have h1 := (h.refill g).new x v
  have h2 := h1.makeOwn x s.next (by simp [AState.new, AState.refill]) (by
      by_contra hc; exact absurd (h.given_lt _ hc) (lt_irrefl _)) (by
      intro w hw
      simp only [AState.new, AState.setHeap, AState.setEnv, AState.refill] at hw
      split_ifs at hw with e
      · exact e
      · exact absurd (h.env_lt w _ hw) (lt_irrefl _))
  exact h2.mono ⟨fun p hp => .inl (mem_lUnion.2 (.inl hp)), fun _ h => h, fun _ h => List.mem_cons_of_mem _ h, fun _ h => h, fun _ h => h⟩

theorem AInv.callAgain {s : AState V} {a : AAbs} (h : AInv s a) (x : ARef) (b : ℕ) (g : ℕ → V) (hb : s.own b = true) :
    AInv ((s.refill g).setEnv x (some b) (g b)) (a.callReuses x) := by
  have h1 := h.refill g
  have e : (s.refill g).heap b = g b := by simp [AState.refill, hb]
  have h2 := h1.setEnv x b (h.own_lt b hb) (({ a with dr := lUnion a.dr a.ow } : AAbs).drop x).ow
    (fun w hw h3 => mem_drop_ow hw (h1.ow w b h3 hb)) (({ a with dr := lUnion a.dr a.ow } : AAbs).drop x).pr
    (fun hg => absurd (h.given_own b hg) (by simp [hb])) (fun _ h => h)
    (x :: (({ a with dr := lUnion a.dr a.ow } : AAbs).drop x).us)
    (fun _ => List.mem_cons_self) (fun _ h => List.mem_cons_of_mem _ h)
  rw [e] at h2
  exact h2

theorem aFix_spec {f : AAbs → Option (AAbs × AAbs)} {n : ℕ} {a : AAbs} {r : AAbs × AAbs} (h : aFix f n a = some r) :
    a.le r.1 ∧ ∃ b e, f r.1 = some (b, e) ∧ b.le r.1 ∧ e.le r.2 ∧ r.1.le r.2 := by
  induction n generalizing a with
  | zero => cases h
  | succ n ih =>
    rw [aFix] at h
    split at h
    · cases h
    · rename_i r' hr
      split_ifs at h with hle
      · cases h
        exact ⟨AAbs.le_refl a, r'.1, r'.2, hr, hle, AAbs.le_join_left _ _, AAbs.le_join_right _ _⟩
      · obtain ⟨h1, h2⟩ := ih h
        exact ⟨AAbs.le_trans (AAbs.le_join_left _ _) h1, h2⟩

theorem aStep_start (a b : AAbs) : a.le (aStep a b).2 := AAbs.le_join_left _ _

theorem AInv.step {s : AState V} {a b : AAbs} (h : AInv s b) : AInv s (aStep a b).2 ∧ ((true = true) → AInv s (aStep a b).1) :=
  ⟨(h.mono (AAbs.le_prune _)).mono (AAbs.le_join_right _ _), fun _ => h.mono (AAbs.le_prune _)⟩

/-- The start of a statement is one of its points. -/
theorem aCheck_start {mode : UserMode} {p : AStmt} : ∀ {a : AAbs} {r : AAbs × AAbs}, aCheck mode p a = some r → a.le r.2 := by
  induction p with
  | skip => intro a r h; simp only [aCheck] at h; cases h; exact AAbs.le_refl _
  | alloc x rs => intro a r h; simp only [aCheck] at h; split_ifs at h; cases h; exact aStep_start _ _
  | bind x z => intro a r h; simp only [aCheck] at h; cases h; exact aStep_start _ _
  | write x rs => intro a r h; simp only [aCheck] at h; split_ifs at h; cases h; exact aStep_start _ _
  | arg x => intro a r h; simp only [aCheck] at h; cases h; exact aStep_start _ _
  | call x z => intro a r h; simp only [aCheck] at h; split_ifs at h; cases h; exact aStep_start _ _
  | hand x => intro a r h; simp only [aCheck] at h; split_ifs at h; cases h; exact aStep_start _ _
  | seq p q ihp ihq =>
    intro a r h; simp only [aCheck] at h
    split at h
    · cases h
    · rename_i r1 h1
      split at h
      · cases h
      · cases h; exact AAbs.le_trans (ihp h1) (AAbs.le_join_left _ _)
  | choice p q ihp ihq =>
    intro a r h; simp only [aCheck] at h
    split at h
    · cases h
    · rename_i r1 h1
      split at h
      · cases h
      · cases h; exact AAbs.le_trans (ihp h1) (AAbs.le_join_left _ _)
  | loop p ih =>
    intro a r h; simp only [aCheck] at h
    obtain ⟨h1, b, e, h2, h3, h4, h5⟩ := aFix_spec h
    exact AAbs.le_trans h1 h5
  | attempt p ih =>
    intro a r h; simp only [aCheck] at h
    split at h
    · cases h
    · rename_i r1 h1; cases h; exact (ih h1 : a.le r1.2)

theorem loop_inv {mode : UserMode} {p : AStmt} {a e : AAbs}
    (body : ∀ {s s' : AState V} {d}, AInv s a → Exec mode p s s' d → AInv s' e ∧ (d = true → AInv s' a)) (hae : a.le e)
    {q : AStmt} {s s' : AState V} {d : Bool} (h : Exec mode q s s' d) (hq : q = .loop p) (hs : AInv s a) :
    AInv s' e ∧ (d = true → AInv s' a) := by
  induction h with
  | stop q s => exact ⟨hs.mono hae, fun h => by cases h⟩
  | loopEnd p' s => exact ⟨hs.mono hae, fun _ => hs⟩
  | loopStop p' s s' h1 =>
    cases hq; exact ⟨(body hs h1).1, fun h => by cases h⟩
  | loopNext p' s s' s'' d h1 h2 _ ih =>
    cases hq; exact ih rfl ((body hs h1).2 rfl)
  | _ => cases hq

/-- Soundness of the checker. -/
theorem aCheck_sound {mode : UserMode} {p : AStmt} : ∀ {a : AAbs} {r : AAbs × AAbs} {s s' : AState V} {d : Bool},
    aCheck mode p a = some r → AInv s a → Exec mode p s s' d → AInv s' r.2 ∧ (d = true → AInv s' r.1) := by
  induction p with
  | skip =>
    intro a r s s' d h hs he
    simp only [aCheck] at h; cases h
    cases he <;> exact ⟨hs, fun _ => hs⟩
  | alloc x rs =>
    intro a r s s' d h hs he
    simp only [aCheck] at h; split_ifs at h with hr; cases h
    cases he with
    | stop => exact ⟨hs.mono (aStep_start _ _), fun h => by cases h⟩
    | alloc _ _ _ v => exact ((hs.uses hr).new x v).step
  | bind x z =>
    intro a r s s' d h hs he
    simp only [aCheck] at h; cases h
    cases he with
    | stop => exact ⟨hs.mono (aStep_start _ _), fun h => by cases h⟩
    | bind => exact (hs.bind x z).step
  | write x rs =>
    intro a r s s' d h hs he
    simp only [aCheck] at h
    split_ifs at h with hx
    cases h
    cases he with
    | stop => exact ⟨hs.mono (aStep_start _ _), fun h => by cases h⟩
    | write _ _ _ b v hb => exact ((hs.uses hx.2).write (by rw [foldl_use_env]; exact hb) hx.1 v).step
  | arg x =>
    intro a r s s' d h hs he
    simp only [aCheck] at h; cases h
    cases he with
    | stop => exact ⟨hs.mono (aStep_start _ _), fun h => by cases h⟩
    | arg _ _ v => exact (hs.arg x v).step
  | call x z =>
    intro a r s s' d h hs he
    simp only [aCheck] at h
    split_ifs at h with hz
    cases h
    have h1 := (hs.use hz).see z
    cases he with
    | stop => exact ⟨hs.mono (aStep_start _ _), fun h => by cases h⟩
    | callFresh _ _ _ v hk => subst hk; exact (h1.new x v).step
    | callNew _ _ _ v hk => subst hk; exact (h1.callNew x v).step
    | callKnown _ _ _ b hk hb => subst hk; exact (h1.callKnown x b hb).step
    | callOwn _ _ _ v g hk => subst hk; exact (h1.callOwn x v g).step
    | callAgain _ _ _ b g hk hb => subst hk; exact (h1.callAgain x b g hb).step
  | hand x =>
    intro a r s s' d h hs he
    simp only [aCheck] at h
    split_ifs at h with hx
    cases h
    cases he with
    | stop => exact ⟨hs.mono (aStep_start _ _), fun h => by cases h⟩
    | hand _ _ b hb => exact ((hs.use hx).give hb).step
  | seq p q ihp ihq =>
    intro a r s s' d h hs he
    have h0 := h
    simp only [aCheck] at h
    split at h
    · cases h
    · rename_i r1 h1
      split at h
      · cases h
      · rename_i r2 h2
        cases h
        cases he with
        | stop => exact ⟨hs.mono (aCheck_start h0), fun h => by cases h⟩
        | seqStop _ _ _ _ e1 => exact ⟨(ihp h1 hs e1).1.mono (AAbs.le_join_left _ _), fun h => by cases h⟩
        | seq _ _ _ sm _ _ e1 e2 =>
          have := ihq h2 ((ihp h1 hs e1).2 rfl) e2
          exact ⟨this.1.mono (AAbs.le_join_right _ _), this.2⟩
  | choice p q ihp ihq =>
    intro a r s s' d h hs he
    have h0 := h
    simp only [aCheck] at h
    split at h
    · cases h
    · rename_i r1 h1
      split at h
      · cases h
      · rename_i r2 h2
        cases h
        cases he with
        | stop => exact ⟨hs.mono (aCheck_start h0), fun h => by cases h⟩
        | left _ _ _ _ _ e =>
          have := ihp h1 hs e
          exact ⟨this.1.mono (AAbs.le_join_left _ _), fun hd => (this.2 hd).mono (AAbs.le_join_left _ _)⟩
        | right _ _ _ _ _ e =>
          have := ihq h2 hs e
          exact ⟨this.1.mono (AAbs.le_join_right _ _), fun hd => (this.2 hd).mono (AAbs.le_join_right _ _)⟩
  | loop p ih =>
    intro a r s s' d h hs he
    simp only [aCheck] at h
    obtain ⟨h1, b, e, h2, h3, h4, h5⟩ := aFix_spec h
    refine loop_inv (a := r.1) (e := r.2) ?_ h5 he rfl (hs.mono h1)
    intro s s' d hs he
    have := ih h2 hs he
    exact ⟨this.1.mono h4, fun hd => (this.2 hd).mono h3⟩
  | attempt p ih =>
    intro a r s s' d h hs he
    have h0 := h
    simp only [aCheck] at h
    split at h
    · cases h
    · rename_i r1 h1
      cases h
      cases he with
      | stop => exact ⟨hs.mono (aCheck_start h0), fun h => by cases h⟩
      | attempt _ _ _ d' e => exact ⟨(ih h1 hs e).1, fun _ => (ih h1 hs e).1⟩

end Extensisq
