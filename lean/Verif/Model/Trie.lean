import Verif.Model.Basic

/-!
# Model of the radix trie (/repo/DuckLib/trie.c, /repo/DuckLib/trie.h)

Simplification: memory allocation (`dl_realloc`, `dl_malloc`) is assumed to succeed.
-/

namespace DuckLisp.Trie

mutual
/-- `dl_trie_node_t` (/repo/DuckLib/trie.h): an index and the child nodes. -/
inductive Node where
  | mk (index : Int) (kids : Kids)
/-- The three parallel arrays `nodes`, `nodes_name`, `nodes_name_lengths` of a node. -/
inductive Kids where
  | nil
  | cons (name : Bytes) (node : Node) (rest : Kids)
end

/-- trie.c:10-17 `dl_trie_init`. -/
def init (nullIndex : Int) : Node := .mk nullIndex .nil

/-- trie.c:19-30 `dl_trie_init_node` for a node without children. -/
def leaf (index : Int) : Node := .mk index .nil

/-- trie.c:83-140 `dl_trie_pushNode`: append one childless node at the end of the arrays. -/
def Kids.push : Kids → Bytes → Node → Kids
  | .nil, name, n => .cons name n .nil
  | .cons a b rest, name, n => .cons a b (rest.push name n)

/-- The `name_index` loop that trie.c:158-258 and trie.c:296-320 share: advance while the bytes
of the name and of the key agree.  Returns the bytes passed, the rest of the name and the rest
of the key. -/
def scan : Bytes → Bytes → Bytes × Bytes × Bytes
  | n :: ns, k :: ks =>
    if k = n then
      let r := scan ns ks
      (n :: r.1, r.2)
    else ([], n :: ns, k :: ks)
  | name, key => ([], name, key)

mutual
/-- trie.c:142-261 `dl_trie_insert_helper`.  `none` is `*success == dl_false`; otherwise the new
name of the node and the new node. -/
def Node.insert : Node → Bytes → Bytes → Int → Option (Bytes × Node)
  | .mk i kids, name, key, index =>
    match scan name key with
    -- trie.c:160-164: name and key both exhausted.
    | (pre, [], []) => some (pre, .mk index kids)
    -- trie.c:165-184: name exhausted, try the child nodes, else push a new one.
    | (pre, [], k :: ks) =>
      match kids.insert (k :: ks) index with
      | some kids' => some (pre, .mk i kids')
      | none => some (pre, .mk i (kids.push (k :: ks) (leaf index)))
    -- trie.c:188-217: key exhausted, split.
    | (pre, n :: ns, []) => some (pre, .mk index (.cons (n :: ns) (.mk i kids) .nil))
    -- trie.c:219-256: mismatch, split unless nothing matched.
    | (pre, n :: ns, k :: ks) =>
      if pre ≠ [] then
        some (pre, .mk (-1) (.cons (n :: ns) (.mk i kids) (.cons (k :: ks) (leaf index) .nil)))
      else none
/-- trie.c:166-176: try the children in order until one accepts the key. -/
def Kids.insert : Kids → Bytes → Int → Option Kids
  | .nil, _, _ => none
  | .cons name n rest, key, index =>
    match n.insert name key index with
    | some (name', n') => some (.cons name' n' rest)
    | none => match rest.insert key index with
      | some rest' => some (.cons name n rest')
      | none => none
end

/-- trie.c:263-270 `dl_trie_insert`: the root has the empty name. -/
def insert (t : Node) (key : Bytes) (index : Int) : Node :=
  match t.insert [] key index with
  | some (_, t') => t'
  | none => t

mutual
/-- trie.c:272-327 `dl_trie_find` at label `l_nodeTraverse` with `node_index == 0`; the key is the
part from `offset` on. -/
def Node.find : Node → Bytes → Int
  | .mk i _, [] => i
  | .mk _ kids, k :: ks => kids.find (k :: ks)
/-- trie.c:284-322: the loop over `node_index`. -/
def Kids.find : Kids → Bytes → Int
  | .nil, _ => -1
  | .cons name n rest, key =>
    match scan name key with
    | (_, [], key') => n.find key'
    | (_, _ :: _, []) => -1
    | (pre, _ :: _, _ :: _) => if pre ≠ [] then -1 else rest.find key
end

/-- trie.c:272 `dl_trie_find`. -/
def find (t : Node) (key : Bytes) : Int := t.find key

end DuckLisp.Trie
