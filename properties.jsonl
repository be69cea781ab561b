{"id": "C01", "title": "Name tables behave as finite maps", "statement": "After any sequence of dl_trie_insert calls on a freshly initialised trie, dl_trie_find of a key returns the value of the most recent insert of exactly that key, and the default value (-1) if that exact key was never inserted; inserting one key never changes what any other key (including prefixes and extensions of it) maps to.", "quantifier": "all finite sequences of inserts of arbitrary byte strings (including the empty string) and all lookup keys", "why_tests_cant": "The trie splits nodes at arbitrary byte positions; correctness depends on every shared-prefix shape that an unbounded history of inserts can create, tests sample only a few shapes.", "anchors": ["DuckLib/trie.c: dl_trie_insert, dl_trie_insert_helper, dl_trie_pushNode, dl_trie_find"]}
{"id": "C02", "title": "Dynamic arrays behave as lists", "statement": "Any sequence of push, multi-push, pop, multi-pop, get, set, get-top, set-top, append and clear on a dl_array gives exactly the results of the same operations on a mathematical list, for both growth strategies; the allocated memory always covers the elements; a failed operation (underflow, index out of range, allocation failure) returns the documented error and leaves the contents unchanged. A copy of an array has its elements and is an array of its own.", "quantifier": "all operation sequences, element values, growth strategies and allocation-failure points", "why_tests_cant": "Capacity/length interplay depends on the whole history of growth and shrinkage and on where an allocation fails.", "anchors": ["DuckLib/array.c: dl_array_pushElement, dl_array_pushElements, dl_array_popElement, dl_array_popElements, dl_array_get, dl_array_set, dl_array_getTop, dl_array_setTop, dl_array_append, dl_array_clear, dl_array_copy"]}
{"id": "C03", "title": "Every sort routine sorts", "statement": "heapsort, quicksort_lomuto and quicksort_hoare, given any comparison that is a total preorder, terminate without touching memory outside the given range, leave the range in non-decreasing order, and leave it a permutation of its previous contents.", "quantifier": "all arrays of all non-zero lengths, all element types, all total preorders", "why_tests_cant": "Sorting correctness is a statement about all inputs and all tie patterns; the jump resolver relies on it for programs of any size.", "anchors": ["DuckLib/sort.c: max_heapify, heapify, heapsort, partition_lomuto, quicksort_lomuto, partition_hoare, quicksort_hoare"]}
{"id": "C04", "title": "Integers survive printing and parsing", "statement": "Printing any machine integer with dl_string_fromPtrdiff and parsing the text with dl_string_toPtrdiff gives back the same integer, including the most negative one; printing appends to the destination without changing what is already there.", "quantifier": "all 64-bit signed integers (and all unsigned sizes for dl_string_fromSize) and all existing destination contents", "why_tests_cant": "2^64 values; the negative branch uses C remainder semantics that differ from the positive branch.", "anchors": ["DuckLib/string.c: dl_string_fromPtrdiff, dl_string_toPtrdiff, dl_string_fromSize, dl_string_fromUint8"]}
{"id": "C05", "title": "Integer syntax is accepted exactly when well formed", "statement": "dl_string_toPtrdiff succeeds exactly on an optional minus sign followed by one or more decimal digits, or by 0x/0X and hexadecimal digits, and returns the value that notation denotes; every other string is rejected with invalidValue. (The bare prefix 0x is accepted as 0.)", "quantifier": "all byte strings (values within the 64-bit range)", "why_tests_cant": "Infinite input language; both acceptance and rejection must be exact.", "anchors": ["DuckLib/string.c: dl_string_toPtrdiff, dl_string_isDigit, dl_string_isHexadecimalDigit"]}
{"id": "C06", "title": "Memory copy is overlap safe", "statement": "dl_memcopy copies size bytes from source to destination as if through a temporary buffer for every overlap of the two ranges, and changes no byte outside the destination range; dl_memcopy_noOverlap does the same whenever the ranges are disjoint; dl_memclear zeroes exactly its range.", "quantifier": "all memories, sizes, source and destination addresses and overlaps", "why_tests_cant": "The direction of copying must be right for every relative position of two ranges of every length.", "anchors": ["DuckLib/core.c: dl_memcopy, dl_memcopy_noOverlap, dl_memclear"]}
{"id": "C07", "title": "String comparison decides equality", "statement": "dl_string_compare reports true exactly when the two byte strings are equal; dl_string_compare_partial reports true exactly when their first n bytes are equal.", "quantifier": "all pairs of byte strings and all n within both strings", "why_tests_cant": "All pairs of strings of all lengths.", "anchors": ["DuckLib/string.c: dl_string_compare, dl_string_compare_partial, dl_string_toBool, dl_string_fromBool"]}
{"id": "C08", "title": "Built-in allocator never hands out overlapping memory", "statement": "With the built-in allocator, every successful allocation returns a block that lies inside the managed memory, is at least as large as requested, and is disjoint from every other live allocation; freeing makes exactly that block available again and adjacent free blocks are coalesced; the table of blocks always tiles the managed memory; the number of bytes reported as in use is that of the live blocks and the table.", "quantifier": "all sequences of allocate and free with all sizes, for every memory size and table size", "why_tests_cant": "Splitting and merging decisions depend on the entire allocation history.", "anchors": ["DuckLib/memory.c: dl_malloc, dl_free, splitBlock, mergeBlockAfter, mergeBlockBefore, dl_memory_findBlock, dl_memory_usage"]}
{"id": "C09", "title": "Printing then reading gives the same program", "statement": "For every syntax tree built from booleans, integers, strings, identifiers, callbacks and nested (literal) expressions, the reader, given its canonical textual form inside an enclosing expression, returns exactly that tree and consumes exactly that text.", "quantifier": "all syntax trees (any size, nesting below the recursion limit) and all following text", "why_tests_cant": "The grammar is recursive with ordered choice and backtracking between eight readers; only induction over all trees settles it.", "anchors": ["parser.c: parse_compoundExpression, parse_expression, parse_literalExpression, parse_string, parse_int, parse_bool, parse_identifier, parse_callback, parse_irrelevant"]}
{"id": "C10", "title": "Whitespace and comments are irrelevant", "statement": "Any amount of whitespace and any comments before a form do not change what the form reads as; comments run from ; to the end of line and may contain anything.", "quantifier": "all sequences of whitespace characters and comments, all following text", "why_tests_cant": "Unbounded padding sequences in unbounded combinations.", "anchors": ["parser.c: parse_irrelevant, parse_comment, parse_compoundExpression"]}
{"id": "C11", "title": "Reader nesting limit is enforced", "statement": "Reading text nested more deeply than parser_max_recursion_depth fails with bufferOverflow instead of recursing further; text nested less deeply never fails with that error; and the depth counter is restored on every exit so the next read starts from zero.", "quantifier": "all source texts, all limits, all nesting depths", "why_tests_cant": "Restoration must hold on every one of the exits of a mutually recursive parser, for every input.", "anchors": ["parser.c: parse_compoundExpression, duckLisp_read", "duckLisp.h: parser_max_recursion_depth"]}
{"id": "C12", "title": "String escapes decode faithfully", "statement": "A string literal denotes exactly the bytes written between its quotes, with backslash-n denoting newline and backslash followed by any other byte denoting that byte; every byte string can be written and reads back as itself.", "quantifier": "all byte strings (arbitrary contents including quotes, backslashes and newlines)", "why_tests_cant": "All byte strings.", "anchors": ["parser.c: parse_string"]}
{"id": "C13", "title": "Symbols are interned", "statement": "symbol_create/nameToValue give each distinct name exactly one id: equal names always get equal ids, distinct names distinct ids, ids are 0,1,2,... in creation order, never change later, and the recorded name of an id is the name it was created with.", "quantifier": "all histories of symbol creations and lookups", "why_tests_cant": "Needs injectivity and stability over every history of creations.", "anchors": ["duckLisp.c: duckLisp_symbol_create, duckLisp_symbol_nameToValue"]}
{"id": "C14", "title": "Generated symbols are fresh", "statement": "gensym never returns the same name twice (for fewer than 2^64 calls) and never a name that can appear in source text, so it cannot capture a user identifier.", "quantifier": "all histories of gensym calls, all source identifiers", "why_tests_cant": "Freshness is relative to every earlier call and every possible program text.", "anchors": ["duckLisp.c: duckLisp_gensym", "DuckLib/core.c: dl_nybbleToHexChar", "parser.c: isIdentifierSymbol, parse_identifier"]}
{"id": "C15", "title": "Variables resolve to the innermost visible binding", "statement": "Within a function body, a name refers to the most recently declared binding of that name in the nearest enclosing scope that declares it; bindings of a closed scope are not visible after it ends; a name bound only outside the function is never resolved to a local slot.", "quantifier": "all scope stacks and declaration histories", "why_tests_cant": "All nestings and shadowing patterns.", "anchors": ["duckLisp.c: duckLisp_scope_getLocalIndexFromName, duckLisp_scope_addObject, duckLisp_pushScope, duckLisp_popScope"]}
{"id": "C16", "title": "Captured variables denote the right outer variable", "statement": "When a name is bound outside the current function (through any number of nested functions), the capture chain that the compiler records leads to exactly the slot of the innermost enclosing binding of that name, and each function's capture list contains no duplicates.", "quantifier": "all scope stacks with any depth of function nesting and all previously recorded captures", "why_tests_cant": "Chains of captures pass through arbitrarily many functions and depend on captures recorded earlier.", "anchors": ["duckLisp.c: duckLisp_scope_getFreeLocalIndexFromName, duckLisp_scope_getFreeLocalIndexFromName_helper"]}
{"id": "C17", "title": "Error reports accumulate", "statement": "Every reported error is appended to the error log, separated by a newline from what is already there; earlier reports are never lost or altered.", "quantifier": "all sequences of error reports", "why_tests_cant": "All histories.", "anchors": ["duckLisp.c: duckLisp_error_pushRuntime", "duckVM.c: duckVM_error_pushRuntime"]}
{"id": "C18", "title": "The compiler's stack bookkeeping matches the machine", "statement": "For every form of the core language (constants, variables, operators, if/when/unless/while, var, setq, scopes, quote, list, vector), executing the generated code changes the machine's stack depth by exactly the amount the compiler recorded, leaves everything below untouched except assigned variables, and puts the form's value where the compiler says it is.", "quantifier": "all core-language programs, all initial stacks, all execution paths (including loops)", "why_tests_cant": "One wrong count anywhere corrupts every later variable access; all nestings and all paths must be covered.", "anchors": ["emitters.c", "generators.c: duckLisp_generator_if, duckLisp_generator_while, duckLisp_generator_noscope, duckLisp_generator_expression, duckLisp_generator_createVar_raw, duckLisp_generator_setq, duckLisp_generator_quote_helper"]}
{"id": "C19", "title": "Compiled programs compute what the source says", "statement": "Running the compiled code of a core-language program yields the value (or error, or divergence) given by the direct evaluation rules of the language: lexical scoping, assignment, truthiness-based branching, loops returning nil.", "quantifier": "all core-language programs and all inputs", "why_tests_cant": "Compiler correctness quantifies over all programs.", "anchors": ["generators.c", "emitters.c", "duckVM.c: duckVM_executeInstruction"]}
{"id": "C20", "title": "quote builds the quoted datum", "statement": "Executing the code for (quote form) pushes an object whose structure is exactly the form: expressions become nil-terminated lists of their parts in order, atoms become themselves, identifiers become symbols with their interned id.", "quantifier": "all quotable forms of any size", "why_tests_cant": "Arbitrary trees.", "anchors": ["generators.c: duckLisp_generator_quote, duckLisp_generator_quote_helper"]}
{"id": "C21", "title": "Machine code operands decode to what was encoded", "statement": "For each instruction the assembler encodes with operands within 32 bits, the virtual machine decodes the same instruction with the same operand values and continues at exactly the next instruction.", "quantifier": "all instructions, all operand values (all 8/16/32-bit width boundaries)", "why_tests_cant": "All operand values and all width choices for ~60 instructions.", "anchors": ["assembler.c: duckLisp_assemble", "duckVM.c: duckVM_executeInstruction"]}
{"id": "C22", "title": "Integer literals keep their value", "statement": "An integer literal in the source is the integer pushed by the running program.", "quantifier": "all 64-bit integers", "why_tests_cant": "The literal passes through a width choice, truncation and sign extension; every boundary matters.", "anchors": ["assembler.c: pushInteger encoding", "duckVM.c: pushInteger8/16/32"]}
{"id": "C23", "title": "Push/pop elimination preserves behaviour", "statement": "Replacing push-then-pop pairs and merging adjacent pops in the assembler does not change the result of running the program from any machine state in which the removed pushes could not fail.", "quantifier": "all instruction sequences, all machine states", "why_tests_cant": "All programs and all states.", "anchors": ["assembler.c: peephole optimisation loop"]}
{"id": "C24", "title": "Jumps land on their labels", "statement": "After jump-size optimisation and address insertion, executing any jump, branch, call or closure creation transfers to exactly the code that follows the label it names.", "quantifier": "all programs with any number of labels and jumps, forwards and backwards, at any distance", "why_tests_cant": "Instruction sizes depend on distances and distances on sizes; the fixed point involves every jump of the program.", "anchors": ["assembler.c: jump size optimisation, address insertion", "duckVM.c: jump, brnz, call"]}
{"id": "C25", "title": "Garbage collection keeps everything reachable", "statement": "A collection never frees an object reachable from the machine's stack, globals, captured variables, active code and pending calls, and never changes the contents of a surviving object.", "quantifier": "all heaps (including cyclic), all root sets, all points at which a collection may occur", "why_tests_cant": "Collection may happen at any allocation in any program state; the heap is an arbitrary graph.", "anchors": ["duckVM.c: duckVM_gclist_garbageCollect, duckVM_gclist_markObject, duckVM_gclist_pushObject"]}
{"id": "C26", "title": "Garbage collection reclaims everything unreachable", "statement": "After a collection every object not reachable from the roots is back on the free list, each exactly once; objects in use plus free objects always make up the whole heap, so no memory is leaked or freed twice, however many collections run.", "quantifier": "all heaps, root sets and histories of allocations and collections", "why_tests_cant": "All heap graphs and all histories.", "anchors": ["duckVM.c: duckVM_gclist_garbageCollect, duckVM_gclist_init, duckVM_gclist_pushObject"]}
{"id": "C27", "title": "Allocation never overwrites a live object", "statement": "A new object always receives a slot that is not in use; allocation fails with outOfMemory only when every slot of the heap is reachable.", "quantifier": "all machine states and allocation histories", "why_tests_cant": "All histories.", "anchors": ["duckVM.c: duckVM_gclist_pushObject"]}
{"id": "C28", "title": "Cyclic lists are detected", "statement": "The list-cycle check reports a cycle exactly when following cdr links from the given list never ends, and always terminates.", "quantifier": "all heaps and all (proper, improper, cyclic) lists of any length", "why_tests_cant": "All cycle and tail lengths.", "anchors": ["duckVM.c: duckVM_listIsCyclic", "duckVM.c: length instruction, duckVM_length"]}
{"id": "C29", "title": "Globals are last-write-wins", "statement": "Reading a global gives the object most recently stored under that key (by the program, by the host, or by linking a function); storing one key never affects another; reading a never-written key is an error.", "quantifier": "all histories of global writes and reads, all keys", "why_tests_cant": "All histories.", "anchors": ["duckVM.c: duckVM_global_get, duckVM_global_set, duckVM_linkCFunction, pushGlobal, setGlobal"]}
{"id": "C30", "title": "Pairs hold what was put in them", "statement": "car and cdr of (cons a b) are a and b; set-car / set-cdr change exactly that field of exactly that pair and are visible through every alias; car and cdr of nil are nil.", "quantifier": "all objects, all heaps, all aliasing patterns", "why_tests_cant": "All heaps and all aliasing.", "anchors": ["duckVM.c: cons, car, cdr, setCar, setCdr instructions"]}
{"id": "C31", "title": "Vectors hold what was put in them", "statement": "A vector has the length it was created with; get returns the last value set at that index (or the initial one); an out-of-range access is an error that changes nothing; slices made with cdr share elements with the original.", "quantifier": "all vectors, indices (including negative), histories and slices", "why_tests_cant": "All indices, offsets, histories.", "anchors": ["duckVM.c: vector, makeVector, getVecElt, setVecElt, car, cdr, setCar, setCdr, length"]}
{"id": "C32", "title": "String operations obey sequence laws", "statement": "length, concatenate, substring, car and cdr on strings agree with the corresponding operations on byte sequences.", "quantifier": "all byte strings and all index pairs, including strings that are themselves slices", "why_tests_cant": "All strings, offsets and indices.", "anchors": ["duckVM.c: makeString, concatenate, substring, length, car, cdr"]}
{"id": "C33", "title": "Arithmetic is exact or reported", "statement": "+, -, *, / on integers give the mathematically exact result whenever it fits the machine integer; mixing with floats promotes to float; non-numeric operands give an error and push nothing.", "quantifier": "all operand pairs of all types", "why_tests_cant": "All integer pairs, all type combinations.", "anchors": ["duckVM.c: add, sub, mul, div instructions"]}
{"id": "C34", "title": "Comparisons are consistent", "statement": "On integers exactly one of <, =, > holds; = is reflexive, symmetric and transitive on integers and booleans, symbols, and strings with equal contents; < and > are converse. Finite floats compare as the numbers they stand for, a NaN answers false to all three, and infinities lie beyond all finite floats. Lists and vectors are equal only if they are one and the same; values of different kinds are never equal.", "quantifier": "all operands of all types", "why_tests_cant": "All operands.", "anchors": ["duckVM.c: equal, less, greater instructions"]}
{"id": "C35", "title": "Truthiness is the same everywhere", "statement": "Branching treats false, 0, 0.0, nil and the empty vector/string as false and every other value as true, and `not` returns the opposite truth value of the one branching uses.", "quantifier": "all objects of all types", "why_tests_cant": "All objects.", "anchors": ["duckVM.c: brnz, not, nullp instructions"]}
{"id": "C36", "title": "User types are unique", "statement": "make-type (and the host's pushNewType) never returns the same type twice nor a built-in type; type-of reports the type a composite was made with.", "quantifier": "all histories of type creation", "why_tests_cant": "All histories.", "anchors": ["duckVM.c: makeType, typeof, makeInstance, duckVM_pushNewType"]}
{"id": "C37", "title": "Composites hold what was put in them", "statement": "composite-value and composite-function return what make-instance or the last matching setter stored; a setter changes nothing else and is visible through every alias.", "quantifier": "all objects, heaps, aliasing, histories", "why_tests_cant": "All heaps.", "anchors": ["duckVM.c: makeInstance, compositeValue, compositeFunction, setCompositeValue, setCompositeFunction"]}
{"id": "C38", "title": "Calls pass exactly the arguments written", "statement": "Calling a function of n parameters with n arguments makes them available in order; any other count is an error; a variadic function receives its surplus arguments as a list in order; execution resumes after the call with exactly one result in place of function and arguments.", "quantifier": "all arities, argument values, call depths", "why_tests_cant": "All arities and argument counts, all stack contents.", "anchors": ["duckVM.c: duckVM_prepareForFuncall, funcall, return, call_stack_push, call_stack_pop"]}
{"id": "C39", "title": "apply spreads its list", "statement": "(apply f a... l) calls f with a... followed by the elements of l; it agrees with the direct call with those arguments.", "quantifier": "all functions, argument counts and lists", "why_tests_cant": "All list lengths and arities.", "anchors": ["duckVM.c: apply instruction"]}
{"id": "C40", "title": "Closures share captured variables", "statement": "All closures that capture one variable, and the scope that declares it, see each other's assignments while the scope is active and after it has ended; captures of different executions of the same scope are independent.", "quantifier": "all schedules of captures, reads, writes and scope exits", "why_tests_cant": "Every interleaving of capture, assignment and release.", "anchors": ["duckVM.c: pushClosure, pushUpvalue, setUpvalue, releaseUpvalues, move"]}
{"id": "C41", "title": "The two machine stacks stay in lockstep", "statement": "The value stack and the upvalue stack have equal length after every successful API call and instruction, so every stack slot has exactly one capture cell.", "quantifier": "all programs, API call sequences and failure points", "why_tests_cant": "All interleavings of pushes, pops, calls and failures.", "anchors": ["duckVM.c: stack_push, stack_pop, stack_pop_multiple, duckVM_softReset"]}
{"id": "C42", "title": "Host values round trip", "statement": "A value pushed and set through the host API (boolean, integer, float, string, symbol, type) is returned unchanged by the matching copy function; wrong-type access is reported as an error and changes nothing; nothing below the top of the stack is affected.", "quantifier": "all values, all stacks", "why_tests_cant": "All values and all stack contents.", "anchors": ["duckVM.c: duckVM_pushInteger, duckVM_setInteger, duckVM_copySignedInteger, duckVM_pushString, duckVM_copyString, duckVM_pushSymbol, duckVM_copySymbolId"]}
{"id": "C43", "title": "Host sequence access agrees with the language", "statement": "The host functions for first/rest/element/length on lists, vectors and strings return what car/cdr/get/length return in the language, and report an error for out-of-range or wrong-type access.", "quantifier": "all sequences, indices, heaps", "why_tests_cant": "All sequences and indices.", "anchors": ["duckVM.c: duckVM_pushFirst, duckVM_pushRest, duckVM_pushElement, duckVM_setElement, duckVM_length, duckVM_setFirst, duckVM_setRest"]}
{"id": "C44", "title": "Reset restores a usable machine", "statement": "After duckVM_softReset the stack, pending calls and captures are empty, globals and heap limits are kept, and the machine can run further programs, whatever happened before (including errors).", "quantifier": "all machine states, including those left by failed programs", "why_tests_cant": "All failure points of all programs.", "anchors": ["duckVM.c: duckVM_softReset"]}
{"id": "C45", "title": "Machine execution stays inside the program", "statement": "Running code produced by the assembler never reads code bytes outside it: each instruction is decoded wholly inside the code and control only moves to instruction boundaries or ends at halt.", "quantifier": "all assembled programs, all execution paths", "why_tests_cant": "All programs, all paths.", "anchors": ["duckVM.c: duckVM_executeInstruction, duckVM_executeWithIp", "assembler.c: duckLisp_assemble"]}
{"id": "C46", "title": "Syntax tree and object conversions are inverse", "statement": "Converting a syntax tree to objects and back yields the same tree (expressions become nil-terminated lists), so macros receive and return exactly the code written.", "quantifier": "all syntax trees", "why_tests_cant": "All trees.", "anchors": ["duckLisp.c: duckLisp_astToObject, duckLisp_objectToAST", "generators.c: duckLisp_consToExprAST, duckLisp_consList_length"]}
{"id": "C47", "title": "Every instruction succeeds or reports an error", "statement": "Whatever the operands and whatever the program did before, an instruction of the machine succeeds or reports an error and leaves the machine's memory in order: every reference leads to a live object of the right kind and no access leaves its object. Running any bytecode, compiled or not, has defined behaviour.", "quantifier": "all machine states in order, all instructions and operands, all bytecode and runs", "why_tests_cant": "All states, operands and byte sequences, including those no compiler emits.", "anchors": ["duckVM.c: duckVM_executeInstruction, duckVM_executeWithIp"]}
{"id": "C48", "title": "Texts of floating point numbers", "statement": "Converting a text to a floating point number accepts exactly the texts that denote a decimal number (sign, digits, point, exponent), reports an error for all others, and computes the number denoted (up to the rounding of the arithmetic); so a number written in a program is the number read.", "quantifier": "all texts, all arithmetics, all bytes after the text", "why_tests_cant": "All texts of any length.", "anchors": ["DuckLib/string.c: dl_string_toDouble", "parser.c: parse_float"]}
{"id": "C49", "title": "Loading a text compiles the program written in it", "statement": "Loading a text gives the code of the program written in it, whatever white space and comments are around it and whatever is in memory after it; running the code of texts loaded one after the other leaves the values the programs in them have, with the globals the earlier ones set.", "quantifier": "all texts, layouts and sequences of texts", "why_tests_cant": "All programs, all ways to write them, all histories of loads.", "anchors": ["duckLisp.c: duckLisp_loadString, duckLisp_compileAST"]}
{"id": "C50", "title": "Parentheses of calls can be left out", "statement": "With parenthesis inference, a program that leaves out the parentheses of calls is read as the program that the declarations determine: a call without parentheses takes as many arguments as declared for its function, a call with parentheses takes all that stands in them, names marked with # and arguments of type L are left alone, and scripts of declarations see the arguments and may declare names. There is one such program at most. Nothing but parentheses is added, inferring once more changes nothing, and a call of a function with a fixed number of arguments means the same with and without parentheses.", "quantifier": "all programs, all declarations and scripts, all nestings of calls and scopes", "why_tests_cant": "All trees of any size and depth, with all sets of declarations and all behaviours of scripts.", "anchors": ["parenthesis-inferrer.c: duckLisp_inferParentheses, inferArgument, inferArguments, inferIncrementally, infer_compoundExpression, interpretDeclare, addDeclaration, findDeclaration, inferrerTypeSignature_fromAst, runVm", "parser.c: duckLisp_read"]}
{"id": "C51", "title": "Calls nest", "statement": "A function that a program calls works on its own part of the stack: its arguments and what it pushes. Until it returns, nothing below its arguments changes, except variables that functions have captured and assign to, however many calls it makes in turn. When it returns, control goes on right after the call, the pending calls are those there were, and the stack is as before with the arguments replaced by one value, the result. No instruction of a compiled program uses or removes a value that does not belong to the running function, and what was on the stack before the program was started is there when it ends.", "quantifier": "all compiled programs of the core language with functions, all runs and depths of recursion, all host functions that take a fixed number of arguments", "why_tests_cant": "Recursion depth, the sequence of calls and the programs are unbounded; a count that is off by one shows only in some combinations of calls, branches and variables.", "anchors": ["emitters.c: duckLisp_emit_funcall, duckLisp_emit_return, duckLisp_emit_pop, duckLisp_emit_move", "generators.c: duckLisp_generator_funcall, duckLisp_generator_lambda, duckLisp_generator_expression", "duckVM.c: duckVM_instruction_funcall, duckVM_executeInstruction (return), duckVM_call", "assembler.c: duckLisp_assemble"]}
{"id": "C52", "title": "Whatever the compiler accepts is assembled", "statement": "In the code of every program the compiler accepts, however its functions, loops and branches are nested, every jump, branch and function refers to exactly one place in the code, each place that was planned is there once, and the code ends by stopping. So once the reader and the code generators have accepted a text, loading it gives code: the assembler cannot reject it.", "quantifier": "all programs, all states of the compiler earlier programs left, all assembler options", "why_tests_cant": "The nesting of functions, loops and branches is unbounded; a label that is missing, or there twice, sends control to a wrong place for some programs only.", "anchors": ["duckLisp.c: duckLisp_gensym, duckLisp_register_label, duckLisp_scope_getLabelFromName, duckLisp_compileAST", "emitters.c: duckLisp_emit_label, duckLisp_emit_jump, duckLisp_emit_brnz, duckLisp_emit_pushClosure", "generators.c: duckLisp_generator_if, duckLisp_generator_when, duckLisp_generator_unless, duckLisp_generator_while, duckLisp_generator_lambda", "assembler.c: duckLisp_assemble"]}
{"id": "C53", "title": "A disassembly shows the code", "statement": "Disassembling code gives one line for each instruction, in their order, with the name of the instruction, its size and its operands as the machine reads them; numbers are shown with two digits to the base of sixteen for each byte, strings in quotes, bytes that are no instruction as illegal. The code is not read beyond its end.", "quantifier": "all code, all programs that were assembled", "why_tests_cant": "All sequences of instructions with all operands: one operand of a wrong size puts all lines after it out of step.", "anchors": ["assembler.c: duckLisp_disassemble", "duckLisp.c: duckLisp_loadString"]}
{"id": "C54", "title": "Macros are functions from program text to program text", "statement": "The call of a macro is compiled as its expansion: the function of the macro is called while the program is compiled, its arguments are the arguments of the call as they are written, in order and not evaluated, and what it returns is compiled in place of the call. Compile-time code is run while the program is compiled, and its value is compiled in its place. Neither changes anything else about the program or leaves values behind. A program without macros and compile-time code is compiled as if there were none.", "quantifier": "all programs, all macros and their arguments, all states of the compiler's machine, all programs loaded before", "why_tests_cant": "Arguments are trees of any size and depth, macros are arbitrary programs that run in the compiler, and calls of macros nest.", "anchors": ["generators.c: duckLisp_generator_macro, duckLisp_generator_defmacro, duckLisp_generator_comptime", "duckLisp.c: duckLisp_compile_expression, duckLisp_compile_compoundExpression, duckLisp_compileAST, duckLisp_loadString, duckLisp_addInterpretedGenerator", "duckVM.c: duckVM_execute"]}
{"id": "C55", "title": "Programs can make symbols and read texts as the language does", "statement": "gensym gives a symbol that differs from every symbol there is, whatever programs named, read, interned or generated before. intern gives the symbol that a name has in programs, the same one each time. read gives the pair of what a text says, as the program text would be as quoted data, and zero, or of the empty list and the number of an error if the text cannot be read. They take their arguments from the stack, put their result in their place and change nothing else a program can see. Arguments of the wrong kind are refused and errors are reported.", "quantifier": "all histories of programs, names, readings and generated names; all texts; all machines and symbol tables; all sizes of memory", "why_tests_cant": "Newness is about all symbols that any history could have made, and whether an object under construction survives depends on when a collection happens, which depends on all that was allocated before.", "anchors": ["duckLisp.c: duckLisp_callback_gensym, duckLisp_callback_intern, duckLisp_callback_read, duckLisp_gensym, duckLisp_symbol_create, duckLisp_astToObject", "duckVM.c: duckVM_pushSymbol, duckVM_copyString, duckVM_pushCons, duckVM_setFirst, duckVM_setRest"]}
{"id": "C56", "title": "Parser actions rewrite the forms that begin with their name", "statement": "A host can register actions for names. When a text is read, each expression that begins with the name of an action is replaced by what the action makes of it, after the same has been done to its parts, from left to right; what an action gives is not looked at again. All other forms are read as if there were no actions. If an action fails, reading fails with its error. The action of a name is the one registered last.", "quantifier": "all programs and their texts, all actions and histories of registrations", "why_tests_cant": "Trees of any size and depth, with actions nested in any way; a rewriting that happens twice, too early or not at all shows only in some nestings.", "anchors": ["parser.c: runAction, duckLisp_parse_compoundExpression, parse_literalExpression, parse_callback, duckLisp_read", "duckLisp.c: duckLisp_addParserAction"]}
{"id": "C57", "title": "Printed syntax trees show what they are", "statement": "Printing a syntax tree adds to the text that is there already and leaves that as it is. What is added does not depend on what is there. From it one can tell which tree was printed and where its text ends, whatever follows.", "quantifier": "all trees, all texts before and after", "why_tests_cant": "Trees of any size and depth with any texts in them; that two different trees can look the same shows only for particular pairs.", "anchors": ["duckLisp.c: duckLisp_ast_compoundExpression_prettyPrint, duckLisp_ast_expression_prettyPrint, duckLisp_ast_identifier_prettyPrint, duckLisp_ast_bool_prettyPrint, duckLisp_ast_integer_prettyPrint, duckLisp_ast_float_prettyPrint, duckLisp_ast_string_prettyPrint, duckLisp_ast_type_prettyPrint", "DuckLib/string.c: dl_string_fromBool, dl_string_fromPtrdiff"]}
{"id": "C58", "title": "Printed objects show what they are", "statement": "A host can have any object of the machine printed. All data is printed: numbers, truth values, texts, symbols, lists and vectors of data and instances of user types, however large. From the text one can tell what the data was and where its text ends, whatever follows. Printing any value reads no memory that is not there. It ends.", "quantifier": "all machines, all values in them, all texts that follow", "why_tests_cant": "Objects of any size and depth with any sharing between them and any bytes in their texts; that two different ones look the same, or that printing does not end, shows only for particular ones.", "anchors": ["duckVM.c: duckVM_object_prettyPrint, duckVM_list_prettyPrint, duckVM_cons_prettyPrint, duckVM_string_prettyPrint, duckVM_internalString_prettyPrint, duckVM_symbol_prettyPrint, duckVM_vector_prettyPrint, duckVM_internalVector_prettyPrint, duckVM_closure_prettyPrint, duckVM_upvalue_prettyPrint, duckVM_composite_prettyPrint", "DuckLib/string.c: dl_string_fromSize, dl_string_fromPtrdiff"]}
{"id": "C59", "title": "Instances of user types in the hands of the host", "statement": "A host can make an instance of a user type, with nil as its value and its function. It reads the type, the value and the function of an instance on top of the stack, and these are what the language reads from it. It sets the value or the function of the instance at any place of the stack to what is on top, and nothing else in the machine changes. Whatever is not an instance is refused, and so are instances of types that are not user types.", "quantifier": "all machines, all heaps however full, all types, all places of the stack", "why_tests_cant": "A collection can happen at each step in which a cell is taken; that it frees a cell that is still needed shows only for particular numbers of free cells.", "anchors": ["duckVM.c: duckVM_pushComposite, duckVM_copyCompositeType, duckVM_pushCompositeValue, duckVM_pushCompositeFunction, duckVM_setCompositeValue, duckVM_setCompositeFunction, duckVM_object_makeComposite"]}
{"id": "C60", "title": "Closures in the hands of the host", "statement": "A host reads from a closure on top of the stack where its code begins, how many arguments it takes and whether it takes more. The closure is a sequence of the variables it has captured: its length is their number, and its elements are the values they have now. A host that sets an element of a closure assigns to the variable, so that every other closure over it and the scope that declares it see the new value, and no other variable changes. Elements that are not there are refused.", "quantifier": "all machines, all closures and their captured variables however shared, all numbers of elements", "why_tests_cant": "Variables are shared between any number of closures through chains of any length, and move when their scope ends.", "anchors": ["duckVM.c: duckVM_copyClosureName, duckVM_pushClosureBytecode, duckVM_copyClosureArity, duckVM_copyClosureIsVariadic, duckVM_length, duckVM_pushElement, duckVM_pushFirst, duckVM_pushRest, duckVM_setElement, duckVM_setFirst, duckVM_closure_getUpvalue, duckVM_closure_setUpvalue, duckVM_upvalueArray_getUpvalue, duckVM_upvalueArray_setUpvalue"]}
{"id": "C61", "title": "A name calls the function that was linked under it", "statement": "A host links functions under names, in any order and again and again. Exactly these names are known to the compiler as names of functions of the host. A call by such a name, where no variable is a function of that name, is compiled to the code of the arguments followed by one call, and that call runs the function that was last linked under the name, whatever else was linked, named and run before and after. Linking succeeds or reports that there is no memory; functions linked before can be called all the same.", "quantifier": "all histories of linking, naming and running, all names, functions and machines in order", "why_tests_cant": "Keys are symbols, which are shared with all names of all programs; which key belongs to a name depends on the whole history.", "anchors": ["duckLisp.c: duckLisp_linkCFunction, duckLisp_symbol_create, duckLisp_symbol_nameToValue", "duckVM.c: duckVM_linkCFunction, c-call instruction", "generators.c: duckLisp_generator_callback"]}
