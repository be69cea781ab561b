import Verif.Model.Asm.Encode

/-!
# The assembler: labels, sizes of jumps, and the finished bytecode

Models the second half of `duckLisp_assemble` (/repo/assembler.c:440-2830), with and without
`NO_OPTIMIZE_JUMPS` and `NO_OPTIMIZE_PUSHPOPS`.

Simplifications.  Positions are unbounded; `jumpLink_less` returns an `int`, so its result is right
only for code shorter than 2^30 bytes.  `absolute` is always false (2369) and left out, as is
`forward`, which is never read.  The `prev` pointers of the list of bytes are never read and left
out; writing one outside the array is undefined behaviour.  Allocation never fails.
-/

namespace DuckLisp.Asm

open DuckLisp DuckLisp.VM

/-- /repo/assembler.c `duckLisp_label_t`: the position of a label, -1 if it has none, and the
positions of the instructions that name it. -/
structure Label where
  target : Int
  sources : List Nat
deriving DecidableEq, Repr

/-- The state of the loop of 456-2545: the bytes of `bytecodeList`, `currentInstruction.byte` and
`labels`. -/
structure Emit where
  bytes : Bytes
  last : Option UInt8
  labels : List Label
deriving DecidableEq, Repr

/-- One round of the loop of /repo/assembler.c:456-2545.  `fixed` is `NO_OPTIMIZE_JUMPS`: four bytes
are left for the address. -/
def emitIns (strip fixed : Bool) (s : Emit) (i : Ins) : Res Emit :=
  match i with
  | .internalNop => .ok s                                                             -- 476-479
  | .label l =>                                                                       -- 2337-2377
      match s.labels[l]? with
      | some b =>
          if b.target = -1 then .ok { s with labels := s.labels.set l { b with target := s.bytes.length } }
          else .err .invalidValue
      | none => .ub
  | _ =>
      match linked i with
      | some (l, o, suffix) =>                                                        -- 2337-2479
          match s.labels[l]? with
          | some b =>
              let op := code o (if fixed then .w32 else .w8)
              .ok { bytes := s.bytes ++ op :: (if fixed then [0, 0, 0, 0] else []) ++ suffix
                    last := some op
                    labels := s.labels.set l { b with sources := b.sources ++ [s.bytes.length + 1] } }
          | none => .ub
      | none =>
          match encode strip s.last i with
          | some (op, args) =>                                                        -- 2526-2545
              .ok { s with bytes := s.bytes ++ op :: args, last := some op }
          | none => .ub

/-- The whole loop. -/
def emitAll (strip fixed : Bool) : Emit → List Ins → Res Emit
  | s, [] => .ok s
  | s, i :: is => do emitAll strip fixed (← emitIns strip fixed s i) is

/-- /repo/assembler.c:444-453. -/
def emitStart (labels : Nat) : Emit := ⟨[], none, List.replicate labels ⟨-1, []⟩⟩

/-! ### Sizes of addresses -/

/-- /repo/assembler.c:47-60 `jumpLink_t`. -/
structure Link where
  source : Int
  target : Int
  size : Nat
deriving DecidableEq, Repr

/-- /repo/assembler.c:2566-2585. -/
def linksOf (labels : List Label) : List Link :=
  labels.flatMap fun b => b.sources.map fun s : Nat => ⟨s, b.target, 0⟩

/-- /repo/assembler.c:143-167 `jumpLinkPointer_t`: one end of a link. -/
structure End where
  index : Nat
  isTarget : Bool
deriving DecidableEq, Repr

/-- /repo/assembler.c:212-217: the number ends are ordered by. -/
def key (links : List Link) (p : End) : Int :=
  match links[p.index]? with
  | some l => if p.isTarget then 2 * l.target + 1 else 2 * l.source
  | none => 0

/-- /repo/assembler.c:2614-2623. -/
def ends (n : Nat) : List End :=
  (List.range n).map (⟨·, false⟩) ++ (List.range n).map (⟨·, true⟩)

/-- /repo/assembler.c:2627-2633. -/
def sortedEnds (links : List Link) : Res (List End) :=
  Sort.quicksortHoare (fun a b => key links a - key links b) (2 * links.length + 1)
    (ends links.length) 0 (2 * links.length - 1)

/-- /repo/assembler.c:2680-2688. -/
def sizeFor (difference : Int) : Nat :=
  if -128 ≤ difference ∧ difference ≤ 127 then 1
  else if -32768 ≤ difference ∧ difference ≤ 32767 then 2
  else 4

/-- The distance from the end of the address to the target. -/
def Link.distance (l : Link) : Int := l.target - (l.source + l.size)

/-- /repo/assembler.c:2650-2706: one round of the inner loop. -/
def visit (st : List Link × Int) (p : End) : List Link × Int :=
  match st.1[p.index]? with
  | some l =>
      if p.isTarget then (st.1.set p.index { l with target := l.target + st.2 }, st.2)
      else
        let l' : Link := { l with source := l.source + st.2 }
        let n := sizeFor l'.distance
        (st.1.set p.index { l' with size := n }, st.2 + (n - l.size : Int))
  | none => st

/-- /repo/assembler.c:2646-2707: one pass. -/
def pass (order : List End) (links : List Link) : List Link × Int := order.foldl visit (links, 0)

/-- /repo/assembler.c:2643-2710: at most `n` passes. -/
def passes (order : List End) : Nat → List Link → List Link
  | 0, links => links
  | n + 1, links =>
      match pass order links with
      | (links', offset) => if offset ≠ 0 then passes order n links' else links'

/-! ### The finished bytecode -/

/-- /repo/assembler.c `byteLink_t`; `next = -1` is `none`. -/
structure Node where
  byte : UInt8
  next : Option Nat
deriving DecidableEq, Repr

/-- The list as it is after the first loop (2526-2548). -/
def nodesFrom (k : Nat) : Bytes → List Node
  | [] => []
  | [b] => [⟨b, none⟩]
  | b :: c :: rest => ⟨b, some (k + 1)⟩ :: nodesFrom (k + 1) (c :: rest)

/-- /repo/assembler.c:2751-2775: the bytes of one address, put after `previous`. -/
def insertBytes (source : Nat) : Bytes → Nat → List Node → Res (List Node)
  | [], _, nodes => .ok nodes
  | b :: bs, previous, nodes =>
      match nodes[previous]? with
      | some p =>
          if source < nodes.length then
            insertBytes source bs nodes.length
              (nodes.set previous { p with next := some nodes.length } ++ [⟨b, some source⟩])
          else .ub
      | none => .ub

/-- /repo/assembler.c:2725-2782: the address of link `new`, whose opcode is before position
`source` of the array. -/
def insertLink (source : Nat) (new : Link) (nodes : List Node) : Res (List Node) :=
  match nodes[source - 1]? with
  | some op =>
      let bump : UInt8 := if new.size = 1 then 0 else if new.size = 2 then 1 else 2
      do
        let nodes ← insertBytes source (bytesOf new.distance new.size) (source - 1)
          (nodes.set (source - 1) { op with byte := op.byte + bump })
        if op.next = none then
          match nodes[nodes.length - 1]? with
          | some t => .ok (nodes.set (nodes.length - 1) { t with next := none })
          | none => .ub
        else .ok nodes
  | none => .ub

/-- The loop of /repo/assembler.c:2725-2783. -/
def insertLinks : List (Link × Link) → List Node → Res (List Node)
  | [], nodes => .ok nodes
  | (old, new) :: rest, nodes => do insertLinks rest (← insertLink old.source.toNat new nodes)

/-- /repo/assembler.c:2812-2819. -/
def flatten (nodes : List Node) : Nat → Option Nat → Res Bytes
  | _, none => .ok []
  | 0, some _ => .timeout
  | fuel + 1, some k =>
      match nodes[k]? with
      | some n => do return n.byte :: (← flatten nodes fuel n.next)
      | none => .ub

/-- /repo/assembler.c:2790-2805 (`NO_OPTIMIZE_JUMPS`): the addresses are written into the bytes left
for them. -/
def patch (bytes : Bytes) (l : Link) : Bytes :=
  bytes.take l.source.toNat ++ bytesOf (l.target - (l.source + 4)) 4 ++ bytes.drop (l.source.toNat + 4)

/-- The addresses are as short as they can be made (the default). -/
def resolve (s : Emit) : Res Bytes :=
  let links := linksOf s.labels
  if links = [] then .ok s.bytes
  else do
    let order ← sortedEnds links
    let new := passes order 10 links
    let nodes ← insertLinks (links.zip new) (nodesFrom 0 s.bytes)
    flatten nodes (nodes.length + 1) (some 0)

/-- All addresses have four bytes (`NO_OPTIMIZE_JUMPS`). -/
def resolveFixed (s : Emit) : Bytes := (linksOf s.labels).foldl patch s.bytes

/-- How the assembler was built and called. -/
structure Options where
  /-- `NO_OPTIMIZE_PUSHPOPS` is not defined -/
  pushPops : Bool := true
  /-- `NO_OPTIMIZE_JUMPS` is not defined -/
  jumps : Bool := true
  /-- `stripSymbolNames` -/
  strip : Bool := false
deriving DecidableEq, Repr

/-- /repo/assembler.c:228-2830 `duckLisp_assemble`, of a program with `labels` labels. -/
def assemble (opt : Options) (labels : Nat) (program : List Ins) : Res Bytes := do
  let s ← emitAll opt.strip (!opt.jumps) (emitStart labels)
    (if opt.pushPops then peephole program else program)
  if opt.jumps then resolve s else .ok (resolveFixed s)

end DuckLisp.Asm
