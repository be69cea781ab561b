import Verif.Proof.Compile.Code
import Verif.Spec.Run

/-!
# How high the stack gets
-/

namespace DuckLisp.Compile

open DuckLisp DuckLisp.VM DuckLisp.Asm DuckLisp.Spec DuckLisp.Reader

theorem room_append (a b : List Ins) : room (a ++ b) = room a + room b := by
  simp [room, List.map_append, List.sum_append]

theorem room_cons (i : Ins) (a : List Ins) : room (i :: a) = Ins.room i + room a := by
  simp [room]

theorem room_nil : room [] = 0 := rfl

theorem room_pos (i : Ins) : 1 ≤ Ins.room i := by
  cases i <;> simp [Ins.room]

/-- No piece leaves more values on the stack than it has instructions. -/
theorem Code.room {K : Keys} {k bs L l code bs' L' l'} (h : @Code K k bs L l code bs' L' l') : L' ≤ L + room code := by
  induction h
  case varLast hc ih =>
    have := hc.after
    simp only [Piece.After, room_append, room_cons, room_nil, Ins.room] at *
    omega
  case block hc ih =>
    have := hc.after
    simp only [Piece.After, room_append, Ins.room] at *
    omega
  case bodyLast hc ih =>
    have := hc.after
    simp only [Piece.After, room_append, Ins.room] at *
    omega
  case noscopeCons hc _ hc2 _ _ =>
    have := hc.after
    have := hc2.after
    simp only [Piece.After, room_append, room_cons, room_nil, Ins.room] at *
    omega
  case argsCons hc _ ih ih2 =>
    have := hc.after
    simp only [Piece.After, room_append] at *
    omega
  case op1 i _ _ _ op _ _ _ =>
    have := fun x => room_pos (op.ins x)
    simp only [room_append, room_cons, room_nil] at *
    grind
  case op2 op _ _ _ _ _ =>
    have := fun x y => room_pos (op.ins x y)
    simp only [room_append, room_cons, room_nil] at *
    grind
  case op3 op _ _ _ _ _ _ _ =>
    have := fun x y z => room_pos (op.ins x y z)
    simp only [room_append, room_cons, room_nil] at *
    grind
  all_goals
    try simp only [room_append, room_cons, room_nil, Ins.room] at *
    omega

/-- The same keys, and heights up to `N`. -/
@[reducible] def Keys.upTo (K : Keys) (N : Nat) : Keys := ⟨K.key, fun n => n ≤ N, K.dialect, K.callable⟩

theorem Code.limited (K : Keys) (N : Nat) {k bs L l code bs' L' l'} (h : @Code K k bs L l code bs' L' l')
    (hN : L + Spec.room code ≤ N) : @Code (K.upTo N) k bs L l code bs' L' l' := by
  induction h
  all_goals
    try simp only [room_append, room_cons, room_nil, Ins.room] at hN
    letI : Keys := K.upTo N
  case bool => exact .bool _
  case int => exact .int _
  case float => exact .float _
  case string => exact .string _
  case var h => exact .var h
  case global key hk h => exact .global key hk h
  case slot h => exact .slot h
  case globalSlot key hk h => exact .globalSlot key hk h
  case temp hx hc ih => exact .temp hx (ih hN)
  case empty => exact .empty
  case scope ho hc ih => exact .scope ho (ih hN)
  case block hc ih => exact .block (ih (by omega))
  case bodyNil => exact .bodyNil
  case bodyLast hs hc ih => exact .bodyLast hs (ih (by omega))
  case bodyCons hs hc hr hc2 ih ih2 => exact .bodyCons hs (ih (by omega)) hr (ih2 (by omega))
  case varLast hn hc ih => exact .varLast hn (ih (by omega))
  case varCons hn hc hr hc2 ih ih2 => exact .varCons hn (ih (by omega)) hr (ih2 (by omega))
  case noscopeLast hn hc ih => exact .noscopeLast hn (ih (by omega))
  case noscopeCons hn hc hr hc2 ih ih2 =>
    have := hc.room
    exact .noscopeCons hn (ih (by omega)) hr (ih2 (by omega))
  case setq hn hc hx ih => exact .setq hn (ih (by omega)) hx
  case setqGlobal key hk hh hn hc hx ih =>
    have := hc.room
    exact .setqGlobal key hk (by show _ ≤ _; omega) hn (ih (by omega)) hx
  case defGlobal key hk hh hn hc ih =>
    have := hc.room
    exact .defGlobal key hk (by show _ ≤ _; omega) hn (ih (by omega))
  case op0 h => exact .op0 h
  case op1 op hn hc ih => exact .op1 op hn (ih (by omega))
  case op2 op hn hc hc2 ih ih2 =>
    have := hc.room
    exact .op2 op hn (ih (by omega)) (ih2 (by omega))
  case op3 op hn hc hc2 hc3 ih ih2 ih3 =>
    have := hc.room
    have := hc2.room
    exact .op3 op hn (ih (by omega)) (ih2 (by omega)) (ih3 (by omega))
  case declare h => exact .declare h
  case list hn hc ih => exact .list hn (ih (by omega))
  case consNil => exact .consNil
  case consCons hc hc2 ih ih2 =>
    have := hc.room
    exact .consCons (ih (by omega)) (ih2 (by omega))
  case vector hn hc ih => exact .vector hn (ih (by omega))
  case elemNil => exact .elemNil
  case elemCons hc hc2 ih ih2 =>
    have := hc.room
    exact .elemCons (ih (by omega)) (ih2 (by omega))
  case quote hn hc ih => exact .quote hn (ih (by omega))
  case quotedForm h1 h2 hc ih => exact .quotedForm h1 h2 (ih (by omega))
  case quotedName => exact .quotedName _
  case quotedList hc ih => exact .quotedList (ih (by omega))
  case quotesNil => exact .quotesNil
  case quotesCons hc hc2 ih ih2 =>
    have := hc.room
    exact .quotesCons (ih (by omega)) (ih2 (by omega))
  case ifConst hn hcb hc ih => exact .ifConst hn hcb (ih (by omega))
  case if_ hn hcc hc hB hcF hcE ih ihF ihE =>
    have := hc.room
    exact .if_ hn hcc (ih (by omega)) hB (ihF (by omega)) (ihE (by omega))
  case whenTrue hn hcb hc ih => exact .whenTrue hn hcb (ih (by omega))
  case whenFalse hn hcb => exact .whenFalse hn hcb
  case when_ hn hcc hc hB hcE ih ihE =>
    have := hc.room
    exact .when_ hn hcc (ih (by omega)) hB (ihE (by omega))
  case unlessTrue hn hcb => exact .unlessTrue hn hcb
  case unlessFalse hn hcb hc ih => exact .unlessFalse hn hcb (ih (by omega))
  case unless_ hn hcc hc hB hcE ih ihE =>
    have := hc.room
    exact .unless_ hn hcc (ih (by omega)) hB (ihE (by omega))
  case while_ hn hcn hc hcC ih ihC =>
    exact .while_ hn hcn (ih (by omega)) (ihC (by omega))
  case lambda params rest _ _ _ hd hn hp hc ih =>
    have hnames : (params ++ rest.toList).length ≤ params.length + 1 := by cases rest <;> simp
    exact .lambda hd hn hp (ih (by omega))
  case funcall hd hn hc hc2 ih ih2 =>
    have := hc.room
    exact .funcall hd hn (ih (by omega)) (ih2 (by omega))
  case apply hd hn hne hc hc2 ih ih2 =>
    have := hc.room
    exact .apply hd hn hne (ih (by omega)) (ih2 (by omega))
  case call key hd hn hk hc ih => exact .call key hd hn hk (ih (by omega))
  case argsNil => exact .argsNil
  case argsCons L _ _ _ _ L1 _ _ _ _ hc hc2 ih ih2 =>
    have : L < L1 := (@Code.after K _ _ _ _ _ _ _ _ hc).1
    have := hc.room
    exact .argsCons (ih (by omega)) (ih2 (by omega))

end DuckLisp.Compile
