# Formal model of duck-lisp in Lean 4

This file says what is modelled, how each property in `properties.jsonl` is
to be proved, and what has to be trusted.  Section 5 records where the code
does *not* have the property; there the full statement is refuted by a
concrete witness and the part that does hold is proved as `..._partial`.

## 1. Layout

* `lean/Verif/Model/*.lean` - the model: total, computable Lean functions,
  each with a comment citing the file and lines of /repo that it models.
* `lean/Verif/Spec/*.lean` - small specifications, independent of the model
  (finite maps, sorted lists, reachability, evaluation rules, ...).
* `lean/Verif/Proof/*.lean` - helper lemmas.
* `lean/Verif/Props/*.lean` - the property theorems, one file per group, with
  an `example` beside each showing that a concrete case meets the
  hypotheses, and `#print axioms`.

## 2. Modelling conventions

* C arrays are `List`s; reads and writes outside a C array are a distinct
  outcome (`Res.ub`), never a default value.  C errors are `Res.err e` with
  `e` from the enumeration `dl_error_t`.
* `dl_ptrdiff_t` is `Int`; where the code can leave the 64-bit range the
  theorem has an explicit range hypothesis or the model wraps/flags UB.
* Loops become structural recursion or recursion on a measure; where the C
  code can diverge the model carries explicit fuel and the theorem states
  that fuel suffices, or quantifies over executions (`Reaches`).
* Memory allocation failure is an input of the model where the property
  speaks about it, otherwise the system allocator is assumed to succeed.

## 3. Trusted base

* Lean 4.33.0's kernel, and the axioms `propext`, `Classical.choice`,
  `Quot.sound` only (printed by `#print axioms` in the `Props` files; many
  theorems need fewer).
* The translation from C to the model, done by hand, function by function.
  Each definition cites the lines it follows and says what it simplifies.
* The C compiler, the C library allocator, IEEE arithmetic of doubles
  (`FloatOps`, `Arith`: the four operations and conversion from integers are
  parameters of the model; comparison and truth of doubles are modelled on
  their bits).
* 64-bit `dl_size_t` and `dl_ptrdiff_t`.

Modelled:

| /repo | model |
|-------|-------|
| `DuckLib/trie.c` | `Model/Trie` |
| `DuckLib/array.c` (default build, `realloc` may fail) | `Model/DynArray`, `Model/ArrayCopy` (`dl_array_copy`, where two arrays may have the same memory) |
| `DuckLib/sort.c` | `Model/Sort` |
| `DuckLib/string.c` (integers, booleans, comparison) | `Model/DlString` |
| `DuckLib/string.c`: `toDouble`, for any arithmetic | `Model/DlFloat` |
| `DuckLib/core.c` (`memcopy`, `memclear`, `strlen`) | `Model/Mem` |
| `DuckLib/memory.c` (built with `USE_DUCKLIB_MALLOC`; not the running statistics `used` and `max_used`) | `Model/Alloc`; `dl_memory_usage` in `Props/AllocUsage` |
| `parser.c` (default build) | `Model/Reader` |
| `duckLisp.c`: symbols, gensym, errors, scopes, lookups, captures | `Model/Tables`, `Model/Compile/Scope` |
| `duckLisp.c`: `compileAST`, `compileExpression`, `pushObject`; `generators.c`: the core language (see below); `emitters.c` | `Model/Compile/Generate`, `Model/Compile/Emit` |
| `duckLisp.c`: `addParserAction` (with enough memory) | `Model/Actions` |
| `duckLisp.c`: `linkCFunction` (the machine may run out of memory, the compiler not) | `Model/Link` |
| `duckLisp.c`: `loadString` | `Model/Load`, `Model/Disasm` (the disassembly it keeps) |
| `assembler.c`: `disassemble` (with enough memory) | `Model/Disasm` |
| `duckLisp.c`: printing of syntax trees (2447-2628, with enough memory) | `Model/Print` |
| `parenthesis-inferrer.c` (built with `USE_PARENTHESIS_INFERENCE`; not messages and the log; what runs scripts is a parameter), and `duckLisp_read` with it | `Model/Infer` |
| `assembler.c`: peephole optimiser, encoding, jump sizes, linking | `Model/Asm/Encode`, `Model/Asm/Link` |
| `duckLisp.c`: `objectToAST`, `astToObject`; `generators.c`: `consList_length`, `consToExprAST`, `consToConsAST` | `Model/AstObj` |
| `duckLisp.c`: `callback_gensym`, `callback_intern`, `callback_read` (without parenthesis inference) | `Model/Callbacks` |
| `generators.c`: `comptime`, `defmacro`, `macro`; `duckLisp.c`: `compile_compoundExpression`, `compile_expression`, `compileAST`, `loadString` with them and the machine of the compiler (not: printing of errors, disassemblies of compile-time code) | `Model/Macro` |
| `duckVM.c`: heap, collector, every instruction, calls, the host interface except printing (6827-7816) | `Model/VM/*` |
| `duckVM.c`: printing of objects (7116-7816, with enough memory) | `Model/PrintObj` |

The compiler model covers constants, variables, the operators, `if`, `when`,
`unless`, `while`, `var`, `noscope`, `setq`, `global`, `quote`, `list`,
`vector`, blocks, declarations, `lambda`, `defun`, `funcall`, `apply`, calls
of functions and of the host.  The theorems C18 and C20 on what code means
are about the part without functions, the core language; those of C19 are about
the core language together with `lambda` with or without `&rest`, `funcall`,
`apply` and calls by the name of a global, where the body of a function
mentions only its own variables and globals (`Dialect`, `Term` in
`Spec/Core.lean`).  Functions that capture variables and `defun` are covered by
the theorems about the assembler and the machine only.  Macros and compile-time
code are in a compiler model of their own, `Model/Macro`, which contains the
other one and the machine; C54 says how they relate.

Not modelled: the REPL and examples, the
other pretty printers, conversion of floats to texts, threads, Windows specific code.  The other models assume the default
build, which uses the system allocator, not that of `memory.c`.

## 4. Plan per property

| id | model | method |
|----|-------|--------|
| C01 | `Model/Trie`: node = name, index, children; insert, find | abstraction to a function from keys to values; induction on the trie |
| C02 | `Model/DynArray`: elements, capacity, strategy, allocator oracle; `Model/ArrayCopy`: two arrays and blocks of memory with names | refinement to `List`, invariant by induction over operations; copies by calculation |
| C03 | `Model/Sort`: three sorts on `List` with index reads that may be UB | permutation + order invariants of each loop |
| C04, C05 | `Model/DlString`: digit loops over `Int` with C division | round trip by strong induction; grammar characterisation |
| C06 | `Model/Mem`: byte memory as a function from addresses | induction over the copy loop in both directions |
| C07 | `Model/DlString`: compare loops | equivalence with list equality |
| C08 | `Model/Alloc`: block table | invariant: blocks tile the memory, by induction over operations |
| C09-C12 | `Model/Reader`: the recursive descent reader on byte lists with a depth budget | round trip by induction on the tree |
| C13, C14 | `Model/Tables`, over the trie model | invariant over histories |
| C15, C16 | `Model/Compile/Scope`: scope stack with tries as maps | refinement to an environment (list of frames) |
| C17 | `Model/Tables` | fold over histories |
| C18, C19, C20 | `Model/Compile`: emitters + generators for the core language, on the VM model | simulation against a big-step evaluator |
| C21, C22 | `Model/Asm/Encode`, `Model/VM/Decode` | round trip per instruction |
| C23 | `Model/Asm/Encode` peephole on instruction lists | simulation on an abstract stack machine |
| C24 | `Model/Asm/Link` | layout arithmetic; the fixed point is not always reached (see 5) |
| C25, C26, C27 | `Model/VM/Heap`: slots, in-use marks, free list, mark & sweep | marked = reachable, invariant over histories |
| C28 | `Model/VM`: Brent's algorithm | invariant on power/lambda |
| C29 | the machine | laws of one store and one read; for histories (`Spec/Later.lean`) an invariant: the cell of the global is in use, holds the value, and no captured variable leads to it |
| C30 | `Model/VM`: cons, car, cdr, set-car, set-cdr | one law per instruction over machines in order (`Spec/Sound.lean`), also when a collection happens |
| C31 | `Model/VM`: vectors and slices as a block and an offset | one law per instruction; the loop that fills a vector by induction, with the cells left to take as the measure |
| C32 | `Model/VM`: texts as a block, an offset and a length | laws over lists of bytes (`Spec/ListOps.lean`) |
| C33, C34 | `Model/VM`: arithmetic and comparison by cases of the two operands | case analysis, with a specification over the integers and an order (`Spec/Order.lean`); floats against the numbers their bit patterns stand for (`Spec/Double.lean`) |
| C35 | `Model/VM`: `truthy`, `not`, branches | case analysis over the kinds of values |
| C36 | `Model/VM`: counter of types | invariant over histories |
| C37 | `Model/VM`: composites | one law per instruction |
| C38, C39 | `Model/VM`: `prepare`, `collectRest`, `enter`, `spreadList` | inversion of the call instruction; induction over the surplus arguments and over the list, across collections |
| C40 | `Model/VM`: captured variables as cells and chains of cells | relation between a cell and the place it leads to (`Spec/Closures.lean`); every step of a schedule (`Spec/Schedules.lean`) moves the places of all reachable variables by one injective map; induction over schedules |
| C41 | the machine | invariant over histories |
| C42, C43 | `Model/VM/Api` | per-call theorems, against the corresponding instructions |
| C44 | `Model/VM/Api` | equality with the freshly made machine up to the heap, for all histories |
| C45 | assembler + VM | positions the code leads to (`Spec/Inside.lean`); invariant by induction over runs, with functions starting only at such positions; in assembled code they are the starts of instructions |
| C46 | `Model/AstObj` | round trip by induction |
| C47 | the machine | each instruction: outcome and invariant; list of the exceptions; induction over runs |
| C48 | `Model/DlFloat`: digit loops over an arithmetic given as a parameter | induction over the digits, with exact arithmetic; the calculation is the same for all arithmetics |
| C49 | `Model/Load`: reader, compiler, assembler | composition of C09 and C19 |
| C50 | `Model/Infer`: the inferrer on forms taken and forms left, with fuel; scripts as interaction trees | equivalence with inference rules (`Spec/Infer.lean`): soundness by induction on the fuel, completeness by induction on derivations; a frame lemma for what follows a call |
| C51 | compiler + assembler + VM | heights of the stack counted along the code (`Spec/Nesting.lean`); machine: invariant by induction over runs with the pending calls stacked one above the other; compiler: every piece of code is level, by induction over the derivation of `Code`, kept by the peephole optimisation, then read off the bytes |
| C52 | compiler + assembler | invariant of the compiler's state: the labels handed out since a point are, up to order, those placed since then and those still known to pending generators; names that differ get labels that differ since generated names differ; by induction over the calls of the generators |
| C54 | `Model/Macro`: compiler, assembler and machine in turns | without compile-time code: both compilers make the same steps, by induction over fuel, generator by generator (`Proof/Macro.lean`); calls of macros: the code of the call is that of quoted data and one `funcall`, inverted from the generators and followed through assembler and machine with the results of C20 and C19 (`Proof/MacroCall.lean`) |
| C55 | `Model/Callbacks`: the host functions, over the machine, the symbol table and the reader | gensym: invariant over histories (names in the table begin with another byte or have a number already taken); intern, read: composed from C09, C13, C42, C43 and C46, following the free cells |
| C53 | `Model/Disasm`: the table of formats and the loop over a format | the machine's decoder as the reference (`Spec/Listing.lean`): case by case the format of an opcode against the operands the machine reads; induction over the instructions |
| C56 | `Model/Reader` (the actions are a parameter), `Model/Actions`: their table | what actions make of a tree as a function on trees (`Spec/Actions.lean`); induction over the text of a tree; the table by C01 |
| C57 | `Model/Print` | injectivity of printing, with the rest of the text left over, by induction on the tree; digits of numbers by their value |
| C58 | `Model/PrintObj`: printing objects, with a bound on how deep calls nest | data is printed as a tree of texts, by induction on the data; injectivity as for C57, with the sizes that are printed before bytes; safety from the invariants of C47; that a printed object has no cycle by descent on the depth, that printing ends without cycles by well-founded induction on the parts, of which there are finitely many |
| C59 | `Model/VM/Api`: the functions on composites | reads by computation; writes from the rule that taking a cell keeps all that can be reached (as for C37, C43); making one from two cells in a row that are taken without a collection; counterexamples by computation |
| C60 | `Model/VM/Api`: the functions on closures; `Spec/Closures`: where variables live | as C40: following links ends where the variable lives; an assignment there changes one variable; taking a cell for the new value keeps all variables in reach where they are |
| C61 | `Model/Link`: symbols, names of linked functions, machine; `Spec/Linking`: histories | invariant by induction over histories, from the maps of C01, the ids of C13 and the globals of C29 |

## 5. Deviations found while reading

Where the code does not have the property it is expected to have, the theorem
named here proves it with a concrete witness, and the property is proved in
the part that does hold.

DuckLib

* Heap sort of an empty array indexes before its start: `C03_heapsort_empty_ub`.
* Printing the smallest integer negates it, which overflows:
  `C04_roundtrip_min_ub`.
* A failed reallocation loses the contents of the array:
  `C02_failed_allocation_loses_contents`.
- `dl_array_copy` ends by assigning the whole source to the destination, the pointer too: the copy shares the memory
  of the source, the memory allocated for it is lost, and giving up both arrays releases one block twice (C02):
  `C02_copy_is_shared`, `C02_copy_released_twice`; without memory the destination is left unusable:
  `C02_copy_no_memory`.
* The copy for disjoint areas destroys overlapping ones, as documented:
  `C06_noOverlap_needs_disjoint`.
* The allocator of `memory.c`: an allocation that fails while the table is
  being enlarged leaves the table's block marked as free, and a later
  allocation gets it: `C08_table_is_handed_out`.  Releasing the last block
  reads the entry before the table: `C08_releasing_the_last_block`.  Sizes
  near 2^64 wrap around: `C08_huge_request_succeeds`.  The strategy `next`
  starts searching at entries that no longer describe a block:
  `C08_next_fit_hands_out_stale_blocks`.  A failed `dl_realloc` gives the old
  block away: `C08_failed_resize_loses_the_block`.  The strategies `best` and
  `worst` do what `first` does: `C08_best_and_worst_fit_are_first_fit`.
  `dl_memory_usage` adds up entries nobody has initialised:
  `C08_usage_counts_junk`.

Reader

* Names such as `truely` are read as the literal `true` followed by something
  else: `C09_true_inside_a_name`.  A lone point makes the reader loop:
  `C09_point_hangs`.  Literals and numbers at the very end of the text, an
  unmatched closing parenthesis, blanks between parentheses or at the end are
  treated differently from the same text elsewhere:
  `C09_number_at_the_end`, `C09_literal_at_the_end`,
  `C09_unmatched_parenthesis`, `C10_blank_between_parentheses`,
  `C10_blank_at_the_end`, `C12_last_in_text`.  An error inside a literal expression makes the reader take the hash sign for a
  nameless symbol, so the failure of a parser action there is lost:
  `C56_failure_lost`.

Compiler tables

* A symbol whose creation runs out of memory stays in the lookup table with a
  number that is given to the next one too: `C13_out_of_memory`.
* A report that can not be stored is lost together with earlier ones:
  `C17_out_of_memory`.

Compiler (seen in the model; the core language of C19 leaves these out)

* `(nop)` counts a value but pushes none: `C18_nop`.  `(while true ...)` counts
  no value, and neither does an `if` with such a branch, whose other branch
  pushes one: `C18_endless_branch`.
* A global is not set when its number equals the place of the value:
  `C19_global_not_set`.  The theorems on what programs do ask that the numbers
  of the globals a program sets are beyond the places it uses (`NumbersFrom`).
* A condition that leaves more than 255 values is miscounted, since the count
  of a conditional jump has 8 bits.
* `if`, `when` and `unless` with a plain variable as condition leave the
  condition on the stack; a program that leaves more than two values leaves
  junk below its result.
* `var`, `defun` and `noscope` outside of bodies compile to nothing; `var` and
  `global` with something else than a name, `quote` of an unsupported type and
  `if` with an invalid branch report errors but go on, or do not report.
* An operand that is a plain variable is read after later operands have been
  evaluated, so `(+ x (setq x 2))` sees the new value.
* Strings and names of more than 65535 bytes are cut after a warning.
* Objects that `read` makes of a tree are in no place that the collector looks
  at while they are being made: `C46_collected`.
* A macro that returns a pair whose rest is not a list makes the compiler write
  beyond the end of an array: `C46_dotted_pair`.  One that returns a circular
  list makes it run forever: `C46_circular`.

Assembler

* Jumps can be given too small an offset field: `C24_jump_misses_its_label`.
* Literals of more than 32 bits are truncated: `C22_large_literals_are_wrong`.
* `equal` with 16-bit operands, `release-upvalues` with no or many operands:
  `C21_defects`.  `pop 0` after a push becomes a huge pop (never emitted):
  `C23_pop_nothing`.

Machine

* Captured variables of functions that are running are not roots of the
  collector: `C25_running_function_loses_captures`.
* A collection during `vector` loses the elements stored so far:
  `C31_vector_loses_elements`.  Elements of empty vectors, negative indices of
  `set-vec-elt`: `C31_empty_access_undefined`, `C31_set_negative_index`.
* `concatenate` of slices reads too much, and fails on texts without storage:
  `C32_concatenate_of_slices`, `C32_concatenate_reads_beyond_end`,
  `C32_concatenate_of_empty`; `symbol-string` of a symbol without name:
  `C32_symbol_string_of_stripped`.
* Integer overflow and division by zero are undefined:
  `C33_overflow_is_undefined`, `C33_division_by_zero_is_undefined`; booleans
  wrap at 8 bits: `C33_boolean_arithmetic_wraps`.
- A call of a host function by its key does not look at what is under the key: if a program has stored another value
  there, the machine takes it for the address of a function (C38, C61): `C38_by_key_not_checked`.
- `=` is not symmetric outside the kinds it knows: with a function or an instance of a user type as first operand it
  is an error, as second operand it answers false (C34): `C34_equal_across_kinds`.
* Truth: the empty string is true for the machine, types and composites are
  false, `not` rejects some values and differs from branching on exhausted
  slices: `C35_*`.
* `apply` drops surplus elements and refuses functions of the host:
  `C39_surplus_is_dropped`, `C39_only_closures`.
* A failed `vector` leaves the two stacks out of step, and the machine can not
  be reset: `C41_failed_vector_breaks_lockstep`,
  `C44_out_of_step_can_not_be_reset`, `C44_failed_program_can_not_be_reset`.
* Host interface: `C42_set_global_undefined`,
  `C42_stripped_symbol_length_not_set`, `C43_first_of_substring`,
  `C43_element_beyond_string`, `C43_rest_of_last_element`,
  `C43_set_rest_makes_improper_list`, `C43_new_vector_has_no_elements`.
* The list of all situations in which an instruction goes wrong
  is `Spec/Safety.lean`; that they do is `C47_faults_are_real`, that there are
  no others is the rest of C47.
* A function that makes functions works only as long as the program it is from
  is the one being run: `duckVM_executeInstruction` takes the code for a new
  closure from the program that was started.  Called from another program it
  makes functions with a position in the wrong code:
  `C47_foreign_function`, `C47_foreign_function_happens`.
* Nothing keeps the code of a running function of another program: if the
  function overwrites all references to itself its code is collected while it
  runs, and the machine reads freed memory (duckVM.c:213-266, 1405-1408):
  `C45_collected_while_running`.
* Applying a function with a rest parameter to an improper list makes an object
  that claims to be a list but is not one; `apply` is listed for this reason.
* Numbers: `-1.` loses its sign, `1e-0` is rejected, 19 digits after the point
  overflow (string.c:248-422): `C48_sign_lost`, `C48_zero_exponent`,
  `C48_long_fraction`.
* `duckLisp_loadString` drops a leading white space character without
  shortening the text, so the byte after the text is read as if it belonged to
  it (duckLisp.c:2157-2160): `C49_reads_beyond`.  The empty text:
  `C49_empty_text`.  Of several forms in a text all but the first are ignored:
  `C49_rest_ignored`.
* The parenthesis inferrer never ends if the type of further arguments is
  neither `L` nor `I` and there are any (parenthesis-inferrer.c:1216-1246):
  `C50_never_ends`.  A literal expression that does not begin with a name, as
  `#(1 2)`, is undefined behaviour (1104-1111, 1562): `C50_literal_head`.
* A call with 256 or more arguments writes their number into one byte (emitters.c:1196-1215): the call passes
  the number modulo 256, the other values stay on the stack, and later operands are taken from wrong places.
  `(+ 100 (funcall (lambda () 7) 1 … 1))` with 256 arguments is 8: `C51_many_arguments`.
* The disassembler reads two operands and a name for stripped symbols, which have one operand, and operands of four
  bytes for the elements of all vectors (assembler.c:2872-2874, 2959-2961), so it shows something else or reads beyond
  the end of the code; `duckLisp_loadString` calls it if disassemblies are asked for: `C53_stripped_symbols_ub`,
  `C53_vector_ub`, `C53_vector_out_of_step`, `C53_loading_vector_ub`.  Floats are not shown: `C53_floats_hidden`.
  Others: `C53_call_fails`, `C53_globals_named_wrongly`.
* The functions of the macros of a program stay on the stack of the compiler's machine, and the slots are counted from 0
  again for the next program, so its macros call functions of earlier programs (duckLisp.c:2118-2122,
  generators.c:1311-1428, 3578-3590): `C54_stale_macro`.
* A macro that becomes a variable becomes no code at all (generators.c:3724, `pushReference` false): `C54_variable_lost`.
* If compile-time code fails with nothing on the stack, the value is read before the start of the array
  (generators.c:1265-1273): `C54_comptime_error`.
* The number of arguments of a macro is taken modulo 256.
* `intern` reports success if memory runs out, with its argument gone and no result on the stack (duckLisp.c:1467-1469):
  `C55_intern_error_lost`.  A program can intern the name that is generated next: `C55_generated_name_interned`.
* Nothing refers to the object that `read` has made while it allocates the pair for the result
  (duckLisp.c:1556-1589), so a collection then loses it: `C55_read_collected`.  `read` with one argument looks at a type
  that was never written (duckLisp.c:1513-1514): `C55_read_without_text`.
* Printed syntax trees do not show the values of floats, and do not mark double quotes in strings
  (duckLisp.c:2447-2628): `C57_floats_hidden`, `C57_quotes_ambiguous`.
* Printing an object whose parts lead back to it calls itself until the stack overflows (duckVM.c:7322-7372):
  `C58_cyclic_never`, `C58_endless`, and likewise a closure that captured itself (7374-7420): `C58_recursive_never`.
  Values of floats and the code of functions are not shown (7738, 7226-7320): `C58_floats_hidden`, `C58_code_hidden`.
  The field `inUse` is printed and never written (7714-7722): `C58_flag_unwritten`.
* C59: `duckVM_pushComposite` (5964-5980) keeps the cell of nil only in a local variable while it takes the next, so a
  collection frees it; with one free cell the instance becomes its own value and function: `C59_new_collected`.
  `duckVM_setCompositeFunction` (6072-6095) refuses places counted from the top, which `duckVM_setCompositeValue` takes:
  `C59_set_function_from_top`.  Neither looks at the type an instance is made of: `C59_builtin_type`.
* C60: `duckVM_upvalueArray_getUpvalue` (5154-5188) does not check the number of the element: `C60_element_beyond`.
  `duckVM_pushRest` (6346-6427) forgets its error for closures and pushes an object that was never set: `C60_rest`.
