import Verif.Proofs.Race
import Verif.Model.RaceCode
/-! C146 - C150: data races. -/
namespace Verif.Race

/-- All that has to be checked for goroutines which call methods. -/
theorem checked_idle {V : Type} [DecidableEq V] {menu : Nat → List (Prog V)} {pol : Nat → Abs V → Op V → Bool}
    (h : ∀ t, (menu t).all (fun p => chk (pol t) p (fun q => q = {}) {}) = true) : Checked menu pol (fun _ q => q = {}) (idle : St V) where
  start := fun _ => rfl
  menus := fun t p hp q hq => by
    have e : q = {} := by simpa using hq
    subst e
    exact List.all_eq_true.1 (h t) p hp
  empty := rfl
  free := fun _ => rfl

theorem free_held {V : Type} [DecidableEq V] {pol : Nat → Abs V → Op V → Bool} {z : Nat → Abs V → Bool} {on : Nat → Bool} {s : St V} {x : V} (m : V)
    (I : Inv pol z on s) (h : ∀ t q w a, pol t q (.acc x w a) = true → m ∈ q.held) : Free s.tr x :=
  free_of I fun t u q q' w a w' a' _ h1 h2 _ _ => .inl ⟨m, h t q w a h1, h u q' w' a' h2⟩

theorem free_const {V : Type} [DecidableEq V] {pol : Nat → Abs V → Op V → Bool} {z : Nat → Abs V → Bool} {on : Nat → Bool} {s : St V} {x : V}
    (I : Inv pol z on s) (h : ∀ t q w a, pol t q (.acc x w a) = true → w = false) : Free s.tr x :=
  free_of I fun t u q q' w a w' a' _ h1 h2 h3 _ => by rw [h t q w a h1, h u q' w' a' h2] at h3; cases h3

theorem free_one {V : Type} [DecidableEq V] {pol : Nat → Abs V → Op V → Bool} {z : Nat → Abs V → Bool} {on : Nat → Bool} {s : St V} {x : V} (v : Nat)
    (I : Inv pol z on s) (h : ∀ t q w a, pol t q (.acc x w a) = true → t = v) : Free s.tr x :=
  free_of I fun t u q q' w a w' a' hne h1 h2 _ _ => absurd ((h t q w a h1).trans (h u q' w' a' h2).symm) hne

theorem free_atomic {V : Type} [DecidableEq V] {pol : Nat → Abs V → Op V → Bool} {z : Nat → Abs V → Bool} {on : Nat → Bool} {s : St V} {x : V}
    (I : Inv pol z on s) (h : ∀ t q w a, pol t q (.acc x w a) = true → a = true) : Free s.tr x :=
  free_of I fun t u q q' w a w' a' _ h1 h2 _ h4 => by rw [h t q w a h1, h u q' w' a' h2] at h4; cases h4

namespace Req
/-- What has to be kept to: these variables are accessed with the mutex, and `Msg` and `Id` are only read. -/
def pol (q : Abs ReqV) : Op ReqV → Bool
  | .acc .chain _ _ | .acc .responder _ _ | .acc .response _ _ | .acc .bmPrev _ _ => q.held.contains .mu
  | .acc .msg w _ => !w
  | _ => true

theorem inv {cs : List (Nat × Nat)} {s : St ReqV} (h : run (fun _ => menu) idle cs = some s) : Inv (fun _ => pol) (fun _ q => q = {}) (fun _ => true) s :=
  inv_of (checked_idle fun _ => by decide) h
end Req

namespace Multi
/-- The mutex for `responses` and `w.L`; `cx` is only read; `gen` and `timerSet` belong to the goroutine that made the multi-request. -/
def pol (mine : Bool) (q : Abs MultiV) : Op MultiV → Bool
  | .acc .responses _ _ | .acc .condL _ _ => q.held.contains .m
  | .acc .cx w _ => !w
  | .acc .gen _ _ | .acc .timerSet _ _ => mine
  | _ => true

theorem inv {cs : List (Nat × Nat)} {s : St MultiV} (h : run menu idle cs = some s) : Inv (fun t => pol (t == 0)) (fun _ q => q = {}) (fun _ => true) s := by
  refine inv_of (checked_idle fun t => ?_) h
  by_cases e : t = 0
  · subst e; decide
  · have e' : (t == 0) = false := by simpa using e
    simp only [menu, e, if_false, e']
    decide
end Multi

namespace Ctx
def pol (mine : Bool) (q : Abs CtxV) : Op CtxV → Bool
  | .acc .cancels _ _ | .acc .condL _ _ => q.held.contains .m
  | .acc .own _ _ | .acc .gen _ _ | .acc .parent _ _ => mine
  | _ => true

theorem inv {cs : List (Nat × Nat)} {s : St CtxV} (h : run menu idle cs = some s) : Inv (fun t => pol (t == 0)) (fun _ q => q = {}) (fun _ => true) s := by
  refine inv_of (checked_idle fun t => ?_) h
  by_cases e : t = 0
  · subst e; decide
  · have e' : (t == 0) = false := by simpa using e
    simp only [menu, e, if_false, e']
    decide

def reqPol (mine : Bool) (q : Abs CtxV) : Op CtxV → Bool
  | .acc .cancels _ _ | .acc .condL _ _ => q.held.contains .m
  | .acc .own _ _ => mine
  | .acc .parent w _ => !w
  | _ => true

theorem req_inv {cs : List (Nat × Nat)} {s : St CtxV} (h : run reqMenu idle cs = some s) :
    Inv (fun t => reqPol (t == 0)) (fun _ q => q = {}) (fun _ => true) s := by
  refine inv_of (checked_idle fun t => ?_) h
  by_cases e : t = 0
  · subst e; decide
  · have e' : (t == 0) = false := by simpa using e
    simp only [reqMenu, e, if_false, e']
    decide
end Ctx

/-- All that has to be checked for goroutines which each run one program. -/
theorem checked_once {V : Type} [DecidableEq V] {pol : Nat → Abs V → Op V → Bool} {s : St V}
    (h : ∀ t, chkS (pol t) (s.k t) (fun _ => true) {} = true) (ht : s.tr = []) (hm : ∀ m, s.own m = none) :
    Checked (fun _ => []) pol (fun _ _ => true) s where
  start := h
  menus := fun _ _ hp => by cases hp
  empty := ht
  free := hm

namespace Cli
/-- Goroutine 1 reads, 2 writes, 3 controls; 0 dials and starts them, and tells the pool, 4. -/
def pol (t : Nat) (q : Abs ConnV) : Op ConnV → Bool
  | .acc .readErr _ _ | .acc .last _ _ | .acc .freed _ _ => t == 1 && !q.sent.contains .cRead || t == 3 && q.got.contains .cRead
  | .acc .shutdown _ _ | .acc .cur _ _ | .acc .curId _ _ => t == 2 && !q.sent.contains .cWrite || t == 3 && q.got.contains .cWrite
  | .acc .reqs _ _ =>
    t == 1 && q.held.contains .hm && !q.sent.contains .cRead || t == 2 && q.held.contains .hm && !q.sent.contains .cWrite ||
      t == 3 && q.got.contains .cRead && q.got.contains .cWrite
  | .acc .conn w _ | .acc .reader w _ | .acc .writer w _ =>
    t == 0 && !q.forked && !q.sent.contains .cDial || !w && (t == 1 || t == 2 || t == 3 || t == 4 && q.got.contains .cDial)
  | .send .cRead => t == 1
  | .send .cWrite => t == 2
  | .send .cDial => t == 0
  | .recv .cRead | .recv .cWrite => t == 3
  | .recv .cDial => t == 4
  | .fork _ => t == 0
  | _ => true

theorem hRead {q q' : Abs ConnV} (h : ConnV.cRead ∉ q.sent) (h' : ConnV.cRead ∈ q'.got) : Hand pol 1 q 3 q' :=
  ⟨.cRead, h, h', fun v q h => by simpa [pol] using h, fun v q h => by simpa [pol] using h⟩

theorem hWrite {q q' : Abs ConnV} (h : ConnV.cWrite ∉ q.sent) (h' : ConnV.cWrite ∈ q'.got) : Hand pol 2 q 3 q' :=
  ⟨.cWrite, h, h', fun v q h => by simpa [pol] using h, fun v q h => by simpa [pol] using h⟩

theorem hDial {q q' : Abs ConnV} (h : ConnV.cDial ∉ q.sent) (h' : ConnV.cDial ∈ q'.got) : Hand pol 0 q 4 q' :=
  ⟨.cDial, h, h', fun v q h => by simpa [pol] using h, fun v q h => by simpa [pol] using h⟩

theorem hStart {q : Abs ConnV} {u : Nat} (h : q.forked = false) (hu : u = 1 ∨ u = 2 ∨ u = 3) : Start pol (fun t => t = 0 || t = 4) 0 q u :=
  ⟨h, by rcases hu with rfl | rfl | rfl <;> rfl, fun v q w h => by simpa [pol] using h⟩

theorem inv {cs : List (Nat × Nat)} {s : St ConnV} (h : run (fun _ => []) start cs = some s) : Inv pol (fun _ _ => true) (fun t => t = 0 || t = 4) s := by
  refine inv_of (checked_once (fun t => ?_) rfl fun _ => rfl) h
  match t with
  | 0 => decide
  | 1 => decide
  | 2 => decide
  | 3 => decide +kernel
  | 4 => decide
  | n + 5 => rfl

/-- What `readErr`, `last` and `freed` have in common. -/
theorem free_read {s : St ConnV} (I : Inv pol (fun _ _ => true) (fun t => t = 0 || t = 4) s) {x : ConnV}
    (h : ∀ t q w a, pol t q (.acc x w a) = true → t = 1 ∧ ConnV.cRead ∉ q.sent ∨ t = 3 ∧ ConnV.cRead ∈ q.got) : Free s.tr x := by
  refine free_of I fun t u q q' w a w' a' hne h1 h2 _ _ => ?_
  replace h1 := h t q w a h1
  replace h2 := h u q' w' a' h2
  rcases h1 with ⟨rfl, h1⟩ | ⟨rfl, h1⟩ <;> rcases h2 with ⟨rfl, h2⟩ | ⟨rfl, h2⟩
  · exact absurd rfl hne
  · exact .inr (.inl (hRead h1 h2))
  · exact .inr (.inr (.inl (hRead h2 h1)))
  · exact absurd rfl hne

theorem free_write {s : St ConnV} (I : Inv pol (fun _ _ => true) (fun t => t = 0 || t = 4) s) {x : ConnV}
    (h : ∀ t q w a, pol t q (.acc x w a) = true → t = 2 ∧ ConnV.cWrite ∉ q.sent ∨ t = 3 ∧ ConnV.cWrite ∈ q.got) : Free s.tr x := by
  refine free_of I fun t u q q' w a w' a' hne h1 h2 _ _ => ?_
  replace h1 := h t q w a h1
  replace h2 := h u q' w' a' h2
  rcases h1 with ⟨rfl, h1⟩ | ⟨rfl, h1⟩ <;> rcases h2 with ⟨rfl, h2⟩ | ⟨rfl, h2⟩
  · exact absurd rfl hne
  · exact .inr (.inl (hWrite h1 h2))
  · exact .inr (.inr (.inl (hWrite h2 h1)))
  · exact absurd rfl hne

theorem free_reqs {s : St ConnV} (I : Inv pol (fun _ _ => true) (fun t => t = 0 || t = 4) s) : Free s.tr ConnV.reqs := by
  refine free_of I fun t u q q' w a w' a' hne h1 h2 _ _ => ?_
  simp only [pol, Bool.or_eq_true, Bool.and_eq_true, beq_iff_eq, Bool.not_eq_true', List.contains_eq_mem, decide_eq_true_eq, decide_eq_false_iff_not] at h1 h2
  rcases h1 with (⟨⟨rfl, h1⟩, h3⟩ | ⟨⟨rfl, h1⟩, h3⟩) | ⟨⟨rfl, h1⟩, h3⟩ <;> rcases h2 with (⟨⟨rfl, h2⟩, h4⟩ | ⟨⟨rfl, h2⟩, h4⟩) | ⟨⟨rfl, h2⟩, h4⟩ <;>
    first
    | exact absurd rfl hne
    | exact .inl ⟨_, h1, h2⟩
    | exact .inr (.inl (hRead h3 h2))
    | exact .inr (.inl (hWrite h3 h4))
    | exact .inr (.inr (.inl (hRead h4 h1)))
    | exact .inr (.inr (.inl (hWrite h4 h3)))

/-- What `conn`, `reader` and `writer` have in common. -/
theorem free_conn {s : St ConnV} (I : Inv pol (fun _ _ => true) (fun t => t = 0 || t = 4) s) {x : ConnV}
    (h : ∀ t q w a, pol t q (.acc x w a) = true → t = 0 ∧ q.forked = false ∧ ConnV.cDial ∉ q.sent ∨
      w = false ∧ ((t = 1 ∨ t = 2 ∨ t = 3) ∨ t = 4 ∧ ConnV.cDial ∈ q.got)) : Free s.tr x := by
  refine free_of I fun t u q q' w a w' a' hne h1 h2 hw _ => ?_
  replace h1 := h t q w a h1
  replace h2 := h u q' w' a' h2
  rcases h1 with ⟨rfl, h1, h3⟩ | ⟨rfl, h1⟩ <;> rcases h2 with ⟨rfl, h2, h4⟩ | ⟨rfl, h2⟩
  · exact absurd rfl hne
  · rcases h2 with h2 | ⟨rfl, h2⟩
    · exact .inr (.inr (.inr (.inl (hStart h1 h2))))
    · exact .inr (.inl (hDial h3 h2))
  · rcases h1 with h1 | ⟨rfl, h1⟩
    · exact .inr (.inr (.inr (.inr (hStart h2 h1))))
    · exact .inr (.inr (.inl (hDial h4 h1)))
  · cases hw
end Cli

namespace Buf
def pol (mine : Bool) (q : Abs BufV) : Op BufV → Bool
  | .acc .rows _ _ => q.held.contains .m
  | .acc .hRow _ _ => mine
  | _ => true

theorem inv {cs : List (Nat × Nat)} {s : St BufV} (h : run menu idle cs = some s) : Inv (fun t => pol (t == 0)) (fun _ q => q = {}) (fun _ => true) s := by
  refine inv_of (checked_idle fun t => ?_) h
  by_cases e : t = 0
  · subst e; decide
  · have e' : (t == 0) = false := by simpa using e
    simp only [menu, e, if_false, e']
    decide
end Buf

namespace Srv
def pol (t : Nat) (q : Abs SrvV) : Op SrvV → Bool
  | .acc .bufRealCap _ _ => q.held.contains .mu
  | .acc .state w _ => t == 3 && !w && q.held.contains .mu && !q.sent.contains .cWrite || t == 1 && (!w || q.held.contains .mu || q.got.contains .cWrite)
  | .send .cRead => t == 2
  | .send .cWrite => t == 3
  | .recv _ => t == 1
  | _ => true

theorem inv {cs : List (Nat × Nat)} {s : St SrvV} (h : run menu start cs = some s) :
    Inv pol (fun t q => t = 1 || t = 2 || t = 3 || q = {}) (fun _ => true) s := by
  refine inv_of (menu := menu) (s := start) ⟨fun t => ?_, fun t p hp q hq => ?_, rfl, fun _ => rfl⟩ h
  · match t with
    | 0 => decide
    | 1 => decide
    | 2 => decide
    | 3 => decide
    | n + 4 => simp [start, chkS]
  · unfold menu at hp
    split at hp
    · cases hp
    · rename_i ht
      simp only [List.mem_singleton] at hp
      subst hp
      have e1 : t ≠ 1 := by omega
      have e2 : t ≠ 2 := by omega
      have e3 : t ≠ 3 := by omega
      have e : q = {} := by simpa [e1, e2, e3] using hq
      subst e
      simp only [e1, e2, e3, decide_false, Bool.false_or]
      simp [respond, Prog.locked, Prog.all, Prog.opt, Prog.r, Prog.w, chk, fine, pol, upd]
end Srv

namespace Sv
def pol (t : Nat) (q : Abs SvV) : Op SvV → Bool
  | .acc .closing _ _ | .acc .conns _ _ | .acc .currentId _ _ => q.held.contains .mu
  | .acc .listener w _ => !w || t == 0 && !q.forked
  | .acc .mu _ _ => false
  | .fork _ => t == 0
  | _ => true

theorem inv {cs : List (Nat × Nat)} {s : St SvV} (h : run (fun _ => []) start cs = some s) : Inv pol (fun _ _ => true) (fun t => t = 0) s := by
  refine inv_of (checked_once (fun t => ?_) rfl fun _ => rfl) h
  match t with
  | 0 => decide
  | 1 => decide
  | 2 => decide
  | 3 => decide
  | n + 4 => rfl
end Sv

namespace Tim
def pol (q : Abs TimV) : Op TimV → Bool
  | .acc .heap _ _ => q.held.contains .hm
  | .acc .heapI _ a => a
  | _ => true

theorem inv {cs : List (Nat × Nat)} {s : St TimV} (h : run (fun _ => menu) idle cs = some s) : Inv (fun _ => pol) (fun _ q => q = {}) (fun _ => true) s :=
  inv_of (checked_idle fun _ => by decide) h
end Tim

namespace Cache
def pol (q : Abs CacheV) : Op CacheV → Bool
  | .acc .rss _ _ => q.held.contains .rsL
  | .acc .wss _ _ => q.held.contains .wsL
  | _ => true

theorem inv {cs : List (Nat × Nat)} {s : St CacheV} (h : run (fun _ => menu) idle cs = some s) : Inv (fun _ => pol) (fun _ q => q = {}) (fun _ => true) s :=
  inv_of (checked_idle fun _ => by decide) h
end Cache

end Verif.Race

namespace Verif.Props
open Verif.Race

/-- `n` steps of goroutine `t`, straight ahead. -/
private def go (t n : Nat) : List (Nat × Nat) := List.replicate n (t, 0)

/-! ### C146: requests -/

/-- C146. Of a request, the answer, the responder, the chain of bookmarks, `Msg` and `Id` are free of data races, whatever any number of goroutines do
with it: answer it, cancel it, chain bookmarks to it, take it from the queue, write it to a connection. -/
theorem C146_request_partial {cs : List (Nat × Nat)} {s : St ReqV} (h : run (fun _ => Req.menu) idle cs = some s) :
    ∀ x ∈ [ReqV.response, .responder, .chain, .bmPrev, .msg], Free s.tr x := by
  have I := Req.inv h
  simp only [List.mem_cons, List.not_mem_nil, or_false]
  rintro x (rfl | rfl | rfl | rfl | rfl)
  iterate 4 exact free_held .mu I fun t q w a h => by simpa [Req.pol] using h
  exact free_const I fun t q w a h => by simpa [Req.pol] using h

/-- Two goroutines answer the same request, and both access the answer. -/
theorem C146_example : ∃ cs s i j, run (fun _ => Req.menu) idle cs = some s ∧ i < j ∧ Conflict s.tr ReqV.response i j :=
  conflicts ((0, 0) :: go 0 17 ++ [(1, 0)] ++ go 1 6) 4 15 (by decide)

/-- C146 is violated for the state: `SetPending` swaps it atomically, `State` and `RespondFail` just read it. -/
theorem C146_state_violated : ∃ cs s, run (fun _ => Req.menu) idle cs = some s ∧ Clash s.tr ReqV.state ∧ ¬ Free s.tr ReqV.state :=
  clashes [(0, 3), (1, 0), (1, 0), (0, 0), (1, 0)] (by decide)

/-- C146 is violated for `Body`: a write loop reads it while the request expires and `chainResponse` sets it to nil. -/
theorem C146_body_violated : ∃ cs s, run (fun _ => Req.menu) idle cs = some s ∧ Clash s.tr ReqV.body ∧ ¬ Free s.tr ReqV.body :=
  clashes ((0, 6) :: go 0 10 ++ [(1, 0)] ++ go 1 15 ++ [(0, 0), (1, 0)]) (by decide)

/-- C146 is violated for `Bookmark.Request`: `contextBookmark.Cancel` reads it while the request is answered and the bookmark is unchained. -/
theorem C146_bookmark_violated : ∃ cs s, run (fun _ => Req.menu) idle cs = some s ∧ Clash s.tr ReqV.bmReq ∧ ¬ Free s.tr ReqV.bmReq :=
  clashes ([(0, 7), (1, 0)] ++ go 1 9 ++ [(1, 1), (1, 0), (1, 0), (1, 0), (1, 0), (1, 0), (1, 0), (0, 0), (1, 0)]) (by decide)

/-! ### C147: multi-requests and contexts -/

/-- C147, multi-requests. -/
theorem C147_multi_partial {cs : List (Nat × Nat)} {s : St MultiV} (h : run Multi.menu idle cs = some s) :
    ∀ x ∈ [MultiV.responses, .condL, .cx, .gen, .timerSet], Free s.tr x := by
  have I := Multi.inv h
  simp only [List.mem_cons, List.not_mem_nil, or_false]
  rintro x (rfl | rfl | rfl | rfl | rfl)
  iterate 2 exact free_held .m I fun t q w a h => by simpa [Multi.pol] using h
  · exact free_const I fun t q w a h => by simpa [Multi.pol] using h
  iterate 2 exact free_one 0 I fun t q w a h => by simpa [Multi.pol] using h

/-- C147, contexts. -/
theorem C147_context_partial {cs : List (Nat × Nat)} {s : St CtxV} (h : run Ctx.menu idle cs = some s) :
    ∀ x ∈ [CtxV.cancels, .condL, .own, .gen, .parent], Free s.tr x := by
  have I := Ctx.inv h
  simp only [List.mem_cons, List.not_mem_nil, or_false]
  rintro x (rfl | rfl | rfl | rfl | rfl)
  iterate 2 exact free_held .m I fun t q w a h => by simpa [Ctx.pol] using h
  iterate 3 exact free_one 0 I fun t q w a h => by simpa [Ctx.pol] using h

/-- C147, contexts of requests: `Done` is called by whoever answers the request. -/
theorem C147_request_context_partial {cs : List (Nat × Nat)} {s : St CtxV} (h : run Ctx.reqMenu idle cs = some s) :
    ∀ x ∈ [CtxV.cancels, .condL, .own, .parent], Free s.tr x := by
  have I := Ctx.req_inv h
  simp only [List.mem_cons, List.not_mem_nil, or_false]
  rintro x (rfl | rfl | rfl | rfl)
  iterate 2 exact free_held .m I fun t q w a h => by simpa [Ctx.reqPol] using h
  · exact free_one 0 I fun t q w a h => by simpa [Ctx.reqPol] using h
  · exact free_const I fun t q w a h => by simpa [Ctx.reqPol] using h

/-- C147 is violated for the generator of the context of a request: the handler makes a request while somebody else answers. -/
theorem C147_generator_violated : ∃ cs s, run Ctx.reqMenu idle cs = some s ∧ Clash s.tr CtxV.gen ∧ ¬ Free s.tr CtxV.gen :=
  clashes [(0, 7), (0, 0), (0, 0), (0, 0), (0, 0), (1, 6), (1, 0), (0, 0), (1, 0)] (by decide)

/-- Two answers to a multi-request are put to its responses. -/
theorem C147_example : ∃ cs s i j, run Multi.menu idle cs = some s ∧ i < j ∧ Conflict s.tr MultiV.responses i j :=
  conflicts ((1, 0) :: go 1 16 ++ [(2, 0)] ++ go 2 12) 4 15 (by decide)

/-- Two goroutines end children of a context. -/
theorem C147_context_example : ∃ cs s i j, run Ctx.menu idle cs = some s ∧ i < j ∧ Conflict s.tr CtxV.cancels i j :=
  conflicts ((0, 1) :: go 0 10 ++ [(1, 0), (1, 0), (1, 1), (1, 0)]) 3 8 (by decide)

/-- C147 is violated for the channel of `Each`, the counters, the kind, and the requests. -/
theorem C147_multi_violated : ∀ x ∈ [MultiV.ch, .c, .r, .kind, .requests, .elems],
    ∃ cs s, run Multi.menu idle cs = some s ∧ Clash s.tr x ∧ ¬ Free s.tr x := by
  simp only [List.mem_cons, List.not_mem_nil, or_false]
  rintro x (rfl | rfl | rfl | rfl | rfl | rfl)
  -- `Each` makes the channel, `Respond` looks whether there is one
  · exact clashes ([(0, 1), (0, 0), (0, 1)] ++ go 0 6 ++ [(1, 0), (0, 0), (1, 0)]) (by decide)
  -- `Cancel` reads the counter, `Respond` increments it with the mutex
  · exact clashes ([(1, 1), (2, 0)] ++ go 1 3 ++ go 2 10 ++ [(1, 0), (2, 0)]) (by decide)
  -- `Request` stores the number of requests, `Cancel` reads it
  · exact clashes ([(0, 0), (1, 1), (0, 0), (0, 1), (0, 0), (0, 0), (0, 0), (0, 1)] ++ go 0 4 ++ go 1 4 ++ [(0, 0), (1, 0)]) (by decide)
  -- `Each` reads the kind, `Cancel` swaps it
  · exact clashes [(0, 1), (1, 1), (1, 0), (1, 0), (0, 0), (1, 0)] (by decide)
  -- `Request` appends to the requests, `performFailAll` reads them with the mutex
  · exact clashes ([(0, 0), (1, 1), (0, 0), (0, 1), (0, 0), (0, 0), (0, 0), (0, 1)] ++ go 0 1 ++ go 1 8 ++ [(0, 0), (1, 0)]) (by decide)
  -- `performFailAll` goes through the requests, `Respond` removes one of them
  · exact clashes ([(1, 1), (2, 0)] ++ go 1 10 ++ [(1, 1)] ++ go 2 8 ++ [(1, 0), (2, 0)]) (by decide)

/-- C147 is violated for the state of a context, which is swapped atomically and read in `Alive`, and for the numbers of cancelers, which `cancelAll`
reads without the mutex. -/
theorem C147_context_violated : ∀ x ∈ [CtxV.state, .cancelsn, .cancelsm],
    ∃ cs s, run Ctx.menu idle cs = some s ∧ Clash s.tr x ∧ ¬ Free s.tr x := by
  simp only [List.mem_cons, List.not_mem_nil, or_false]
  rintro x (rfl | rfl | rfl)
  · exact clashes [(0, 2), (1, 3), (0, 0), (1, 0)] (by decide)
  · exact clashes ([(0, 2), (0, 0), (0, 0), (0, 1), (0, 0), (1, 0), (1, 0), (1, 1), (1, 0), (1, 0), (1, 0), (1, 0), (1, 0), (0, 0), (1, 0)]) (by decide)
  · exact clashes ([(0, 2), (0, 0), (0, 0), (0, 1), (1, 0), (1, 0), (1, 0), (1, 1), (1, 0), (1, 0), (0, 0), (1, 0)]) (by decide)

/-! ### C148: connections of a client, and the queue before them -/

/-- C148, connection: what the three loops of a connection share apart from its state and the two counters is free of data races. -/
theorem C148_connection_partial {cs : List (Nat × Nat)} {s : St ConnV} (h : run (fun _ => []) Cli.start cs = some s) :
    ∀ x ∈ [ConnV.conn, .reader, .writer, .readErr, .shutdown, .reqs, .cur, .curId, .last, .freed], Free s.tr x := by
  have I := Cli.inv h
  simp only [List.mem_cons, List.not_mem_nil, or_false]
  rintro x (rfl | rfl | rfl | rfl | rfl | rfl | rfl | rfl | rfl | rfl)
  iterate 3 exact Cli.free_conn I fun t q w a h => by simp [Cli.pol] at h; grind
  · exact Cli.free_read I fun t q w a h => by simpa [Cli.pol] using h
  · exact Cli.free_write I fun t q w a h => by simpa [Cli.pol] using h
  · exact Cli.free_reqs I
  · exact Cli.free_write I fun t q w a h => by simpa [Cli.pol] using h
  · exact Cli.free_write I fun t q w a h => by simpa [Cli.pol] using h
  · exact Cli.free_read I fun t q w a h => by simpa [Cli.pol] using h
  · exact Cli.free_read I fun t q w a h => by simpa [Cli.pol] using h

/-- C148, queue. -/
theorem C148_queue_partial {cs : List (Nat × Nat)} {s : St BufV} (h : run Buf.menu idle cs = some s) : ∀ x ∈ [BufV.rows, .hRow], Free s.tr x := by
  have I := Buf.inv h
  simp only [List.mem_cons, List.not_mem_nil, or_false]
  rintro x (rfl | rfl)
  · exact free_held .m I fun t q w a h => by simpa [Buf.pol] using h
  · exact free_one 0 I fun t q w a h => by simpa [Buf.pol] using h

/-- A connection is dialed, and its loops are started. -/
private def dialed : List (Nat × Nat) := [(0, 0), (0, 1)] ++ go 0 6 ++ [(0, 1)] ++ go 0 5

/-- The write loop has taken one request and ended, and the control loop was told so. -/
private def wclosed : List (Nat × Nat) :=
  dialed ++ [(2, 0), (2, 0), (2, 1), (2, 0), (2, 0), (2, 0), (2, 0), (2, 0), (2, 0), (2, 1), (2, 0), (2, 0), (2, 0), (2, 0), (2, 1), (2, 1), (2, 0)] ++
    (3, 1) :: go 3 5

/-- The socket is set and then used by the loops, and a request is taken by the write loop and answered in the read loop. -/
theorem C148_example : ∃ cs s i j, run (fun _ => []) Cli.start cs = some s ∧ i < j ∧ Conflict s.tr ConnV.conn i j :=
  conflicts wclosed 1 13 (by decide)

/-- C148 is violated for the state of a connection: the pool looks at it while the connection is dialed. -/
theorem C148_state_violated : ∃ cs s, run (fun _ => []) Cli.start cs = some s ∧ Clash s.tr ConnV.state ∧ ¬ Free s.tr ConnV.state :=
  clashes [(4, 1), (4, 0), (0, 0)] (by decide)

/-- C148 is violated for the number of answered requests: the read loop increments it, the control loop reads it in `count` after the write loop has ended. -/
theorem C148_put_violated : ∃ cs s, run (fun _ => []) Cli.start cs = some s ∧ Clash s.tr ConnV.put ∧ ¬ Free s.tr ConnV.put :=
  clashes (wclosed ++ [(1, 0), (1, 0), (1, 1), (1, 0), (1, 0), (1, 0), (1, 0), (1, 1), (1, 0), (1, 0), (1, 0), (1, 1), (1, 0), (1, 0), (3, 0), (3, 0),
    (1, 0), (3, 0)]) (by decide)

/-- C148 is violated for the number of requests: the read loop reads it when it sees that the write loop has ended, but only the control loop was told. -/
theorem C148_got_violated : ∃ cs s, run (fun _ => []) Cli.start cs = some s ∧ ¬ Free s.tr ConnV.got :=
  unordered (wclosed ++ [(1, 0), (1, 0), (1, 1), (1, 0), (1, 0), (1, 0), (1, 0), (1, 1), (1, 0), (1, 0), (1, 0), (1, 1), (1, 0), (1, 0), (1, 0), (1, 0), (1, 0), (1, 0),
    (1, 0)]) (fun t => t = 2 || t = 3) 15 39 (by decide)

/-- C148 is violated for the ends of the queue, the row at its tail, the state of its places, and whether an end point is stopped. -/
theorem C148_queue_violated : ∀ x ∈ [BufV.head, .tail, .tRow, .slot, .stopped],
    ∃ cs s, run Buf.menu idle cs = some s ∧ Clash s.tr x ∧ ¬ Free s.tr x := by
  simp only [List.mem_cons, List.not_mem_nil, or_false]
  rintro x (rfl | rfl | rfl | rfl | rfl)
  · exact clashes ((0, 0) :: go 0 5 ++ [(0, 1), (0, 0), (0, 0), (0, 1), (1, 0), (1, 0), (0, 0), (1, 0)]) (by decide)
  · exact clashes ([(1, 0)] ++ [(2, 0)] ++ go 2 3 ++ [(1, 0), (2, 0)]) (by decide)
  · exact clashes (go 1 5 ++ go 2 11 ++ [(1, 0), (2, 0)]) (by decide)
  · exact clashes ([(0, 0), (1, 0)] ++ go 0 5 ++ [(0, 1), (0, 0)] ++ go 1 5 ++ [(1, 1), (0, 0), (1, 0)]) (by decide)
  · exact clashes [(1, 2), (2, 3), (1, 0), (2, 0)] (by decide)

/-! ### C149: connections of a server, timers, and `Auto` -/

/-- C149, connection of a server: the state and the capacity of the buffer are free of data races. -/
theorem C149_connection_partial {cs : List (Nat × Nat)} {s : St SrvV} (h : run Srv.menu Srv.start cs = some s) :
    ∀ x ∈ [SrvV.state, .bufRealCap], Free s.tr x := by
  have I := Srv.inv h
  simp only [List.mem_cons, List.not_mem_nil, or_false]
  rintro x (rfl | rfl)
  · refine free_of I fun t u q q' w a w' a' hne h1 h2 hw _ => ?_
    have hand : ∀ {q q' : Abs SrvV}, SrvV.cWrite ∉ q.sent → SrvV.cWrite ∈ q'.got → Hand Srv.pol 3 q 1 q' := fun h h' =>
      ⟨.cWrite, h, h', fun v q h => by simpa [Srv.pol] using h, fun v q h => by simpa [Srv.pol] using h⟩
    simp only [Srv.pol, Bool.or_eq_true, Bool.and_eq_true, beq_iff_eq, Bool.not_eq_true', List.contains_eq_mem, decide_eq_true_eq,
      decide_eq_false_iff_not] at h1 h2
    rcases h1 with ⟨⟨⟨rfl, h1⟩, h3⟩, h5⟩ | ⟨rfl, h1⟩ <;> rcases h2 with ⟨⟨⟨rfl, h2⟩, h4⟩, h6⟩ | ⟨rfl, h2⟩
    · exact absurd rfl hne
    · rcases h2 with (h2 | h2) | h2
      · rw [h1, h2] at hw; cases hw
      · exact .inl ⟨_, h3, h2⟩
      · exact .inr (.inl (hand h5 h2))
    · rcases h1 with (h1 | h1) | h1
      · rw [h1, h2] at hw; cases hw
      · exact .inl ⟨_, h1, h4⟩
      · exact .inr (.inr (.inl (hand h6 h1)))
    · exact absurd rfl hne
  · exact free_held .mu I fun t q w a h => by simpa [Srv.pol] using h

/-- The write loop looks at the state before the connection is closed for reading. -/
theorem C149_example : ∃ cs s i j, run Srv.menu Srv.start cs = some s ∧ i < j ∧ Conflict s.tr SrvV.state i j :=
  conflicts ([(3, 1), (3, 0), (3, 0), (3, 1), (3, 0), (3, 1), (3, 0), (2, 0), (2, 0)] ++ go 1 5) 2 8 (by decide)

/-- A broken connection of a server: the write loop ends, the read loop takes one more request and ends, and the control loop is about to forget the
connection. -/
private def ended : List (Nat × Nat) :=
  [(3, 0), (3, 0), (1, 1)] ++ go 1 10 ++ [(2, 1)] ++ go 2 4 ++ [(2, 0), (2, 0)] ++ go 1 9

/-- C149 is violated for the requests in work and the buffer of answers: the control loop forgets both without the mutex when the connection has ended,
while the last request is answered. -/
theorem C149_connection_violated : ∀ x ∈ [SrvV.buf, .inFly],
    ∃ cs s, run Srv.menu Srv.start cs = some s ∧ Clash s.tr x ∧ ¬ Free s.tr x := by
  simp only [List.mem_cons, List.not_mem_nil, or_false]
  rintro x (rfl | rfl)
  · exact clashes (ended ++ (4, 0) :: go 4 4 ++ [(4, 0), (1, 0)]) (by decide)
  · exact clashes (ended ++ [(1, 0), (4, 0), (4, 0), (4, 0), (1, 0)]) (by decide)

/-- C149, timers: what the mutex of a heap guards, and the counter of timers, are free of data races. -/
theorem C149_timer_partial {cs : List (Nat × Nat)} {s : St TimV} (h : run (fun _ => Tim.menu) idle cs = some s) :
    ∀ x ∈ [TimV.heap, .heapI], Free s.tr x := by
  have I := Tim.inv h
  simp only [List.mem_cons, List.not_mem_nil, or_false]
  rintro x (rfl | rfl)
  · exact free_held .hm I fun t q w a h => by simpa [Tim.pol] using h
  · exact free_atomic I fun t q w a h => by simpa [Tim.pol] using h

/-- A timer is set while the heap is looked through. -/
theorem C149_timer_example : ∃ cs s i j, run (fun _ => Tim.menu) idle cs = some s ∧ i < j ∧ Conflict s.tr TimV.heap i j :=
  conflicts ([(0, 2), (0, 0), (0, 1), (0, 0), (0, 1), (0, 0), (1, 0), (1, 0), (1, 1)] ++ go 1 5) 1 8 (by decide)

/-- C149 is violated for the heap of a timer, which `Stop` reads while `After` sets it, for the table of heaps and its size, which are read without the
mutex under which they grow, and for the servers of an `Auto`, of which the same is true. -/
theorem C149_timer_violated : ∀ x ∈ [TimV.th, .heaps, .heapN, .servers],
    ∃ cs s, run (fun _ => Tim.menu) idle cs = some s ∧ Clash s.tr x ∧ ¬ Free s.tr x := by
  simp only [List.mem_cons, List.not_mem_nil, or_false]
  rintro x (rfl | rfl | rfl | rfl)
  · exact clashes [(0, 1), (1, 0), (1, 0), (1, 0), (1, 0), (1, 1), (1, 0), (1, 0), (0, 0), (1, 0)] (by decide)
  · exact clashes [(0, 1), (0, 0), (0, 0), (1, 0), (1, 0), (1, 0), (1, 0), (1, 0), (1, 0), (1, 1), (1, 0), (0, 0), (1, 0)] (by decide)
  · exact clashes ([(0, 0), (0, 0), (0, 0), (0, 0), (0, 1), (0, 0)] ++ go 1 8 ++ [(0, 0), (1, 0)]) (by decide)
  · exact clashes [(0, 3), (1, 4), (1, 0), (1, 0), (1, 0), (1, 0), (0, 0), (1, 0)] (by decide)

/-! ### C150: servers -/

/-- C150. A server that is run, accepts connections, loses them and is stopped has no data race: neither on its connections nor on its listener, nor on
whether it is closing. -/
theorem C150_server {cs : List (Nat × Nat)} {s : St SvV} (h : run (fun _ => []) Sv.start cs = some s) (x : SvV) : Free s.tr x := by
  have I := Sv.inv h
  cases x with
  | closing | conns | currentId => exact free_held .mu I fun t q w a h => by simpa [Sv.pol] using h
  | listener =>
    refine free_of I fun t u q q' w a w' a' hne h1 h2 hw _ => ?_
    have start : ∀ {q : Abs SvV} {u : Nat}, q.forked = false → u ≠ 0 → Start Sv.pol (fun t => t = 0) 0 q u := fun h h' =>
      ⟨h, by simpa using h', fun v q w h => by simpa [Sv.pol] using h⟩
    simp only [Sv.pol, Bool.or_eq_true, Bool.and_eq_true, beq_iff_eq, Bool.not_eq_true'] at h1 h2
    rcases h1 with h1 | ⟨rfl, h1⟩
    · rcases h2 with h2 | ⟨rfl, h2⟩
      · rw [h1, h2] at hw; cases hw
      · exact .inr (.inr (.inr (.inr (start h2 hne))))
    · exact .inr (.inr (.inr (.inl (start h1 (Ne.symm hne)))))
  | mu => exact free_const I fun t q w a h => by simp [Sv.pol] at h

/-- The server is closed while it accepts connections. -/
theorem C150_example : ∃ cs s i j, run (fun _ => []) Sv.start cs = some s ∧ i < j ∧ Conflict s.tr SvV.closing i j :=
  conflicts (go 0 5 ++ [(1, 1)] ++ go 1 6 ++ (3, 1) :: go 3 4) 7 10 (by decide)

/-! ### C151: the caches of codecs -/

/-- C151: the maps under construction are only touched with the mutex. -/
theorem C151_caches_partial {cs : List (Nat × Nat)} {s : St CacheV} (h : run (fun _ => Cache.menu) idle cs = some s) :
    ∀ x ∈ [CacheV.rss, .wss], Free s.tr x := by
  have I := Cache.inv h
  simp only [List.mem_cons, List.not_mem_nil, or_false]
  rintro x (rfl | rfl)
  · exact free_held .rsL I fun t q w a h => by simpa [Cache.pol] using h
  · exact free_held .wsL I fun t q w a h => by simpa [Cache.pol] using h

/-- Two goroutines make readers, one after the other. -/
theorem C151_example : ∃ cs s i j, run (fun _ => Cache.menu) idle cs = some s ∧ i < j ∧ Conflict s.tr CacheV.rss i j :=
  conflicts ((0, 0) :: go 0 19 ++ (1, 0) :: go 1 10) 7 22 (by decide)

/-- C151 is violated for the maps that are used and what they hold: they are published by a plain write of the pointer, and read without the mutex. -/
theorem C151_caches_violated : ∀ x ∈ [CacheV.rs, .ws, .readers, .writers],
    ∃ cs s, run (fun _ => Cache.menu) idle cs = some s ∧ ¬ Free s.tr x := by
  simp only [List.mem_cons, List.not_mem_nil, or_false]
  rintro x (rfl | rfl | rfl | rfl)
  · exact unordered ((0, 0) :: go 0 19 ++ (1, 0) :: go 1 2) (fun t => t = 0) 12 15 (by decide)
  · exact unordered ((0, 1) :: go 0 19 ++ (1, 1) :: go 1 2) (fun t => t = 0) 12 15 (by decide)
  · exact unordered ((0, 0) :: go 0 19 ++ (1, 0) :: go 1 2) (fun t => t = 0) 10 16 (by decide)
  · exact unordered ((0, 1) :: go 0 19 ++ (1, 1) :: go 1 2) (fun t => t = 0) 10 16 (by decide)

end Verif.Props
