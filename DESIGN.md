# DESIGN

Formal model, in Lean 4, of larryhastings/big (pinned commit in /repo).  Nothing in
/repo is executed; the models are transcriptions read from the source and every
definition cites file and lines.

## Plan per property

* **C01** Heap is a priority queue for every history — Verif/Heap: CPython heapq (heappush, heappop, heapify, _siftup, _siftdown, heappushpop, heapreplace) on arrays-as-lists, Heap wrapper as a state machine; heap-shape invariant + permutation, induction over the operation list, refinement to a multiset.
* **C02** Heap iteration and .queue are sorted — Verif/Heap: iterator state (copy, version); sortedness by repeated pop-min; version counter strictly grows on every mutation.
* **C03** Heap slicing agrees with the sorted list — Verif/Heap, Verif/Heap/Slice: __getitem__ for slices branch by branch, against CPython's slices of the sorted list, for any step.
* **C04** Heap combined operations equal their parts — Verif/Heap: corollaries of heappushpop/heapreplace min + permutation.
* **C05** Scheduler yields events in (time, priority, insertion) order and never early — Verif/Scheduler: locked body of the iterator as an atomic step over the heap; min theorem from Heap.
* **C06** Scheduler neither loses nor duplicates events under any interleaving — Verif/Scheduler: interleaving transition system, ghost history, invariant by induction.
* **C07** Cancel removes exactly its event — Verif/Scheduler: unique event ids invariant; list.remove by equality.
* **C08** non_blocking yields exactly the due events — Verif/Scheduler: drain loop; sorted prefix theorem.
* **C09** Blocking iteration ends only when the queue is empty, and Scheduler.queue predicts it — Verif/Scheduler: StopIteration branch; queue = sorted copy.
* **C10** A sleeping consumer is woken by every queue change — Verif/Scheduler: sleep/wake as separate steps; counterexample trace for the lost wake-up and positive theorem.
* **C11** ready() never yields a node before its predecessors are done — Verif/Graph: TopologicalSorter nodes dict + views (predecessor counts, ready, yielded, done, conflicts) as state machine; invariants by induction over operation histories.
* **C12** A view yields each node at most once — Verif/Graph: invariant ready/yielded/done/not-ready partition.
* **C13** static_order is a complete topological order — Verif/Graph: loop of static_order over fresh view; uses C11,C12,C17.
* **C14** cycle() is sound and complete — Verif/Graph: cycle() DFS with its stack; soundness + completeness.
* **C15** add builds the union of dependencies — Verif/Graph: abstract spec graph (set of nodes, set of edges) refinement.
* **C16** remove deletes exactly one node and its edges — Verif/Graph: as C15, including the early-exit scan count.
* **C17** A coherent view on an acyclic graph always makes progress — Verif/Graph: minimal not-done node argument on acyclic finite graph.
* **C18** Incoherence is never reported wrongly, and can be repaired — Verif/Graph: conflict bookkeeping invariant.
* **C19** Views are independent and reset is a fresh view — Verif/Graph: frame theorem per view; reset = fresh.
* **C20** A copy never affects its original — Verif/Graph/CopyModel, Copy: two graphs side by side; the original's state is invariant under calls on the copy.
* **C21** done() counts each node once — Verif/Graph: counterexample theorems for repeated/invalid arguments, partial.
* **C22** Version comparison is a total order following PEP 440 fields — Verif/Version: comparison tuple and _lt/_eq; spec order written as explicit lexicographic relation.
* **C23** Which equal versions hash equally — Verif/Version: hash tuple; an iff (Exact) and a counterexample.
* **C24** str of a parsed version parses back to an equal version — Verif/Version: parser following the regex group by group on List Char; printer; round trip.
* **C25** Spelling of a version does not matter — Verif/Version: normalisation lemmas on the parser; Spelling, Case.
* **C26** Which keyword-constructed versions survive str — Verif/Version: keyword constructor; an iff (Exact) and counterexamples.
* **C27** PushbackIterator behaves like a stack in front of the wrapped iterator — Verif/Pushback: wrapped iterator as list (possibly raising), refinement to a stack ++ rest.
* **C28** StateManager callback protocol — Verif/State: callbacks as programs over the manager, big-step interpreter with trace; protocol theorem on trace.
* **C29** A failed transition leaves the StateManager in the old state — Verif/State: the transition at every crash point.
* **C30** dispatch and accessor follow the current state — Verif/State: dispatch looks up method on current state; history theorem.
* **C31** Log records what happened — Verif/Log: log/enter/exit/reset state machine; invariants.
* **C32** Which recorded times Log.print shows right — Verif/Log: format_time; an iff over whole seconds (TimeExact), counterexample.
* **C33** Which filenames translate_filename_to_exfat makes legal — Verif/File: translate as per-character map plus special cases; an iff and a counterexample.
* **C34** translate_filename_to_unix returns a legal Unix filename — Verif/File: map lemma.
* **C35** fgrep and grep return exactly the matching lines — Verif/File: filter over lines.
* **C36** Filesystem helpers guarantee their post-condition — Verif/File: abstract filesystem; per-function post-conditions, pushd as bracket.
* **C37** multisplit with keep loses nothing — Verif/Multisplit: re.split over an alternation matched greedily in order sorted by length; join = s.
* **C38** multisplit splits at exactly the separators, greedily — Verif/Multisplit/Spec: declarative `Alternates`/`Splits` (longest separator at each position, no separator starts inside a text), proved unique; the regular expressions the code builds are run by the backtracking engine of Verif/Regex.
* **C39** maxsplit bounds the number of splits — Verif/Multisplit: prefix theorem.
* **C40** reverse mirrors forward — Verif/Multisplit: reversal model (multisplit_reversed of strings, separators, results).
* **C41** multistrip removes all separators at the sides asked for — Verif/Multisplit/Strip: greedy match of (sep)+ at start, search for (sep)+$ .
* **C42** multipartition returns 2*count+1 pieces that rejoin — Verif/Multisplit/Props2: arithmetic on the result list.
* **C43** normalize_whitespace collapses runs — Verif/Multisplit/Norm: both paths; alternating list with every separator replaced.
* **C44** split_title_case loses nothing and splits only before capitals — Verif/Words/SplitTitle: loop model on List Char with abstract case predicates.
* **C45** combine_splits cuts at the union of all cuts — Verif/Words/CombineSplits, CombineProps: offsets merge; boundaries union.
* **C46** gently_title changes only the case of word-initial characters — Verif/Words/GentlyTitle: the loop, with the three character predicates as parameters; a separate reading of what a word start is.
* **C47** split_quoted_strings loses nothing — Verif/Quoted: state machine over characters.
* **C48** split_delimiters nests — Verif/Delims: state machine over tokens; stack invariant; a character-by-character parser as specification.
* **C49** lines numbers and preserves every line — Verif/Lines: lines() over the multisplit model.
* **C50** Lines modifiers keep leading+line+trailing+end equal to the original line — Verif/Lines: LineInfo clip operations and modifiers; counterexample.
* **C51** lines_strip_indent assigns indent levels like a stack of indents — Verif/Lines/Indent: indent stack.
* **C52** wrap_words keeps the words and fills the lines — Verif/Wrap/Words: loop model; invariant on what has been emitted.
* **C53** What split_text_with_code returns — Verif/Wrap/Split, SplitLines, SplitProps, SplitExact: exact result for every text, iff for the layout, counterexamples.
* **C54** merge_columns keeps the columns — Verif/Wrap/Merge*: the overflow intervals, the padded lines and the zipping loop; the rows are characterised by a separate predicate Shows, proved unique.
* **C55** int_to_words names distinct integers differently — Verif/IntWords: the loop over quantities, tens and units, the recursive calls; a separate reader of English numerals; reads back every integer below 10**75, hence injective.
* **C56** re_partition splits at matches and loses nothing — Verif/RePart: a compiled pattern on a string is a function (pos, endpos) -> end of match; finditer on top of it, both partition loops; shape, rejoining and errors for every lawful matcher, exact texts for patterns without anchors or lookahead (proved of the regex engine of Verif/Regex), counterexamples.
* **C57** reversed_re_finditer yields true matches that do not overlap, right to left — Verif/RePart: the loop with overlapping_matches, for every lawful matcher; loop invariant and decreasing measure.
* **C58** timestamp_3339Z sorts chronologically — Verif/Time: the proleptic Gregorian calendar (day numbers, inverse functions), instants in microseconds, strftime as fixed-width digits; lexicographic order of strings against order of instants, an independent reader by position.
* **C59** get_int, get_float and try_* never raise on unconvertible input — Verif/Builtin: conversions as outcomes.
* **C60** Bound inner classes inherit as the inner classes do — Verif/BoundInner: heap of classes with names, bases, MROs (C3 modelled and simulated) and initializers, instance dicts as caches; invariant over histories.
* **C61** encode_strings accepts exactly str, bytes and their collections — Verif/Encode: mutual inductive type of objects; structural recursion against an inductive relation 'same shape'.
* **C62** Deprecated splitters lose nothing — Verif/Deprecated: character loops as recursions over the remaining text; the segments against a grammar of quoted strings (both directions), the tuples against an inductive definition of well-nested token sequences (both directions); lines_strip_comments with the Lines model; counterexample: RuntimeError on a trailing opening quote.
* **C63** Lines filters select and keep order — Verif/Lines: filter / stable sort.
* **C64** multisplit strip modes; PROGRESSIVE splits like str.split — Verif/Multisplit/Progressive: strip step and PROGRESSIVE branch; refinement to a direct definition of str.split(None, n) / rsplit.
* **C65** LineInfo column_number counts the clipped leading text — Verif/Lines/Chain, Strip: column bookkeeping of clip_leading/clip_trailing; exact for non-empty lines, counterexamples with tabs.
* **C66** lines_strip_line_comments cuts at the first unquoted marker — Verif/Lines/Comments, Filters: fold over lines of the split_quoted_strings model of Verif/Quoted, quote state threaded between lines.
* **C67** lines_strip and lines_rstrip yield the stripped line — Verif/Lines/Strip: clip arithmetic against a direct definition of strip/rstrip and against the multistrip model.
* **C68** multisplit duplicates the str splitting methods — Verif/Multisplit/PyStr (direct definitions of the str methods), Verif/Multisplit/Builtins: refinement through the unique alternating list of pieces.
* **C69** Heap's container methods describe its contents — Verif/Heap/ContainerModel, Container: bags through SpecRun of C01; == by uniqueness of sorted arrangements (counting argument) and by determinism of the specification; full abstraction both ways; counterexample for ties that are not ==.
* **C70** Log.print prints every event — Verif/Log/PrintModel, Print: the printed lines as lists of characters; a layout predicate InColumns; invariant for longest_event.
* **C71** Version's accessors and sys.version_info — Verif/Version/AccessModel, Access: through parse_render of C110 and the documented order of C22.
* **C72** The separator tables list the right characters — Verif/Multisplit/Tables2, ByteLines: the specification is a set of code points per table; both inclusions proved for all characters; bytes tables and their reversed versions; splitlines and split(None) of bytes through the theorems of C38, C64 and C68.
* **C73** In a one-thread program, iterating over a Scheduler yields every event and ends — Verif/Scheduler/SingleModel, Single: the while loop of _next with sleep as any function of clock and interval; induction on the time to the first event, then on the number of events; on top of the reachable states of C05 to C10.
* **C74** multistrip takes any iterable of separators, and multisplit and multistrip refuse anything else — Verif/Multisplit/ArgsModel, Args: Python values as an inductive type (None, str, bytes, collection, iterator, anything else); an inductive relation says which separators an argument stands for; case analysis and induction on the elements.
* **C75** split_delimiters can continue a text piece by piece with state — Verif/Delims/Resume: on top of the single-character parser of C48 (Delims/Single), to which the code is proved equal; induction on the first piece with the stack of open delimiters as invariant.
* **C76** split_quoted_strings can continue a text piece by piece with state — Verif/Quoted/Resume: the pieces of multisplit of a ++ b are those of a and b joined at the cut (no separator straddles it); then induction on the pieces through the loop, with the open quote and the buffer as invariant.
* **C77** fgrep and grep read the file as documented — Verif/File/GrepModel, Grep: mode selection, decoding (a parameter) and the translation of line breaks; lines specified by an inductive relation with CR LF as one break, shown to be a function of the text; then C35.
* **C78** What split_delimiters' SyntaxErrors say — Verif/Delims/MsgModel, Msg: the messages beside the loop of C48; the first problem of a text specified by a character-by-character reading (same one as C48's parser, which is proved), with an invariant relating `consumed` and `open` to it.
* **C79** Calls of multistrip do not influence one another — Verif/Multisplit/CacheModel, Cache: the memoised pattern maker with object-keyed cache, generators made and started at different times, mutable separator objects, arbitrary eviction; an invariant on the cache gives that each call equals the pure function of Multisplit.Model, which C37-C43 are about.
* **C80** Calls of split_delimiters do not influence one another — Verif/Delims/CacheModel, Cache, Order: the comparison with the exported default mappings, the memoised table maker and its key; invariant on the cache; the tables proved to be functions of the set of items, multisplit of the set of tokens (C38).
* **C81** LineInfo.clip_leading and clip_trailing keep the line — Verif/Lines/ClipModel, Clip: a calls-relation Cuts/CutsAll as specification; induction over the calls.
* **C82** Chains of lines modifiers work on streams — Verif/Lines/Streaming: a source that raises after the lines read shows what has been yielded by then; a relation between the run that stops there and any longer run is kept by every modifier, hence by chains.
* **C83** lines takes any iterable of lines, or of pairs — Verif/Lines/IterModel, Iter: __next__ as a step of a state machine over values of arbitrary type, induction over the values.
* **C84** gently_title and normalize_whitespace take any iterable of strings — Verif/Words/ArgsModel, Args: the checks of both functions over arguments of any type; the effect reduced to C43 and C46.
* **C85** Which arguments split_quoted_strings takes — Verif/Quoted/CallModel, Call, CallErrors: the checks over arguments of any type, in their order; the effect reduced to C47.
* **C86** Which heap indices agree with the sorted list — Verif/Heap: nsmallest/nlargest against the sorted list; negation for -9..-2, and an iff.
* **C87** Incoherence is always reported — Verif/Graph: the converse of C18 for every clean view; counterexample otherwise.
* **C88** Which characters gently_title capitalises — Verif/Words/GentlyTitle, TitleExact: the state machine against a grammar of words and heads.
* **C89** Quoted text ends at the first quote mark that is not escaped — Verif/Quoted: an inductive specification of reading from the left with the longest mark, carried through the loop; uniqueness of that reading; from the token-level statement of C47 to occurrences in the text.
* **C90** split_delimiters loses no text, and when it repeats none — Verif/Delims/Main: invariant of the loop relating what was yielded, the buffer and what was consumed; Delims/Reread: for delimiters of any length, a resplit goes back by what was ignored.
* **C91** wrap_words respects the margin, but not two_spaces — Verif/Wrap/Words: column invariant of the loop.
* **C92** When merge_columns aligns the columns — Verif/Wrap/MergeProps: lengths of the cells of a row.
* **C93** When re_partition splits at exactly the matches — Verif/RePart/Exact: the loop of str.partition calls gives the spans of finditer iff every match is the first place of its text (induction on the loop); RePart/Rx: which patterns are textual.
* **C94** reversed_re_finditer moves leftwards, strictly but for empty matches — Verif/RePart/Twice: at most one overlapping match and one empty match can start at a place (a count over the loop).
* **C95** For which types timestamp_3339Z shows microseconds by default — Verif/Time: the type switch of timestamp_3339Z.
* **C96** What get_int_or_float, get_int and try_int return or raise — Verif/Builtin: the sequence of conversions over abstract outcomes.
* **C97** Bound inner classes are bound once per instance — Verif/BoundInner: invariants of the cache over every history of accesses.
* **C98** When encode_strings preserves structure — Verif/Encode: structural induction.
* **C99** When the README's str_split is str.split — Verif/Multisplit/Builtins.
* **C100** When Log.print prints columns — Verif/Log/Print: lengths of the formatted times.
* **C101** Which of Version's operators and release levels work — Verif/Version.
* **C102** Which separator arguments multisplit takes — Verif/Multisplit/ArgsModel, Args.
* **C103** Which separators a call of multisplit uses — Verif/Multisplit/CacheModel (generators, objects that change, lru_cache), Cache and CacheExact: invariant that a cached pattern is what its key stood for at some time.
* **C104** Which delimiters split_delimiters uses — Verif/Delims/CacheModel, Cache.
* **C105** lines over pairs refuses anything but pairs and two-character strings — Verif/Lines/IterModel, Iter.
* **C106** What gently_title refuses — Verif/Words/ArgsModel, Args, TitleExact.
* **C107** When multistrip removes only separators — Verif/Multisplit/Strip: from C41_multistrip_general; newline counterexample.
* **C108** A graph copy is independent of the original and behaves like it — Verif/Graph/CopyModel, Copy: two graphs side by side, exceptions included; counterexamples, partial.
* **C109** Which dedents lines_strip_indent accepts — Verif/Lines/Indent: indent stack; counterexample.
* **C110** Which lower-case spellings of a version normalise as PEP 440 says — Verif/Version: normalisation lemmas on the parser; an iff (Exact); .post/.dev default to None and upper-case labels assert.
* **C111** LineInfo: column numbers, clipping nothing, argument types — Verif/Lines/ClipModel, Clip.
* **C112** What a transition that raises does to the StateManager — Verif/State: dichotomy (Exact): the transition switches, or the manager is wedged for ever.
* **C113** Which observers are called — Verif/State: the cached tuple of observers against the list.
* **C114** Which threads miss a wake-up — Verif/Scheduler/Props: the step of every other thread at schedule and cancel.
* **C115** What a heap holds after an exception — Verif/Heap/FaultModel: the C implementation of heapq (which swaps items in the list) with a stateful comparison that may raise; Verif/Heap/Fault: each call against a specification of bags, for every comparison; equal to the model of C01 when nothing raises.
* **C116** Which calls on a heap that raise change it — False of the code (heapq changes the list in place before it compares): proved for IndexError, ValueError and exceptions of == in remove; the negation proved for every append, popleft and extend that raises because of a comparison.
* **C117** Which struct_times the timestamps take for the instant they stand for — calendar.timegm modelled, mktime arbitrary; an exact iff by injectivity of the timestamps. False of the code for UTC under any name but GMT (taken for local time) and for zones called GMT with an offset.
* **C118** safe_mkdir, safe_unlink and touch keep their promises among other processes — The functions, and os.makedirs, as sequences of system calls, with an arbitrary change of the tree before each; a trace of each call's effect; refinement to the model of C36 when alone.
* **C119** When touch keeps the contents of files, and safe_unlink raises, among other processes — As C118. False of the code: exact conditions as iffs.
* **C120** When a pushd block returns to the directory where it was entered — The programs of C36. False of the code for objects not made where the block begins: exact iff.
* **C121** Version accepts exactly the documented arguments — Version/ArgsModel.lean: the checks in their order over typed Python objects; reduction to parse and to the keyword constructor of C26.
* **C122** Delimiter and split_delimiters take the documented arguments, and refuse anything else — Delims/ArgsModel.lean: the checks in their order over typed objects; reduction to the function of C48 and C90; C80_order for mappings equal to the default in another order.
* **C123** lines_strip_line_comments' SyntaxErrors name the line and the quote — Lines/MsgModel.lean: the generator of C66 with the variables the message is made of; a refinement theorem to the model of C66; induction over the lines.
* **C124** When the SyntaxErrors for multiline quotes give the right column — The model of C123. False of the code: the column reported is that of the last line; exact iff.
* **C125** safe_mkdir, safe_unlink and touch keep their promises with symbolic links — A file tree with links and the Linux path walk (at most 40 links). The walk is related to an inductive relation; determinism, monotonicity and removal of an entry by induction on it.
* **C126** A Scheduler keeps to the regulator's protocol, and its calls are atomic — A step-by-step model of each method (one step per access to shared state and per regulator call). A function maps each state to a state of the atomic model (C05 to C10); every step is matched by 0, 1 or 2 atomic steps. Lock, trace and result invariants by induction.
* **C127** What a schedule or cancel that raises has changed — The model of C126. False of the code if wake raises; proved if it does not.
* **C128** Which calls on a TopologicalSorter that raise change nothing — Verif/Graph/RaiseModel.lean: add, remove and done with arguments that need not be hashable, exception by exception, on top of the model of C11. False of the code for add with an unhashable dependency and for done with several arguments; proved for all other calls, and for these two the exact condition under which nothing changes.
* **C129** When PushbackIterator passes on the exceptions of the wrapped iterator — Verif/Pushback/Exc.lean, on the model of C27: the specification is a sequence of values and exceptions to come. False of the code for next(), whose bare except turns every exception into StopIteration; proved with an exact condition on the history.
* **C130** Which calls on a Log that raise record nothing — Verif/Log/RaiseModel.lean: the calls statement by statement, with any object as argument and a clock that may raise. False of the code in two cases; proved with the exact condition.
* **C131** Which comment markers work — Verif/Lines/ArgsModel.lean: the calls with any object as markers (indexable, not indexable, dict, not iterable) and markers of any type. False of the code for sets, iterators, generators and dicts (`markers[0]`).
* **C132** When multiline_quotes given as a string means its characters — Verif/Lines/ArgsModel.lean: `leading_quote not in multiline_quotes` is a substring test for a str. False if a (longer) quote occurs in t; proved with the exact condition.
* **C133** static_order() may be interleaved with anything — Verif/Graph/GenModel.lean: the generator as a machine with a next; Verif/Graph/Gen.lean: an invariant over all interleavings, on top of the observer of Spec.lean.
* **C134** Wrapping wrapped text again gives what wrapping the original gives — `Form` is the grammar of what split_text_with_code gives; `reflow_lines` proves by induction on it that the lines of the wrapped text have that layout; C53_layout does the rest.
* **C135** combine_splits is a union: order, repetition and grouping do not matter — Uniqueness of a cutting into non-empty pieces with given cuts, by induction, on top of C45.
* **C136** When translating or title-casing again changes nothing — Fixed points of the translation, with C33; gently_title by induction on the text for each state of its loop.
* **C137** lines modifiers applied again, or in another order — Two generators in a row are one generator (each_each); then case analysis per line; for lines_sort, uniqueness of a stable sort.
* **C138** python3 -m big.graph is a tsort — Verif/Graph/TsortModel, Tsort: reading lines and fields against a grammar of lines and words; the graph then by C13.
* **C139** Chains of lines modifiers yield each line at most once, in order, with what lines_grep stored — Verif/Lines/Order: a function of LineInfo that clipping does not change; each modifier maps its values to a sublist (a permutation of one with lines_sort); induction over the chain.
* **C140** Separators are taken literally, whatever characters they contain — Verif/Multisplit/PatternModel: the text of the pattern, character by character, and a reader of the part of Python's re syntax used; Verif/Multisplit/Pattern: induction over the separators; the tree that is read matches like the tree of Multisplit/Model, for all continuations.
* **C141** parse_timestamp_3339Z reads what timestamp_3339Z writes — Verif/Time/ParseModel: the functions with tzinfo objects of any type and fold, dateutil a parameter that reads RFC 3339 times in UTC; Verif/Time/Parse: from C58_reads and C58_format.
* **C142** lines splits a text where splitlines does — Verif/Lines/Splitlines: C49 and uniqueness of the split; str.splitlines and bytes.splitlines as Python's documentation defines them (Multisplit/PyStr, ByteLines), by recursion over the text.
* **C143** Partitioning by an escaped pattern is partitioning by separators — Verif/RePart/Literal: search and re.split against finditer on the same pattern, by induction along the string. Verif/RePart/LiteralRev: the loop of reversed_re_finditer finds the last occurrence that ends before the match before (invariant), as does finditer mirrored; uniqueness.
* **C144** When the string functions return str or bytes rather than an instance of a subclass — Verif/Subclass: the functions again on strings that carry a class, following which of Python's operations make a new string; each function is proved equal to the model without classes followed by a choice of the object returned.
* **C145** lines, and instances of subclasses of str and bytes — Verif/Subclass/LinesModel, LinesProps: __next__ and the type check of LineInfo.__init__ on strings that carry a class; induction on the iterable.
* **C146** Bound inner classes accessed by several threads — BoundInner/ThreadModel: `__get__` as a program whose steps are the reads and writes of what threads share, and schedules of any number of accesses; rely and guarantee (ThreadInv) over a predicate on programs; ThreadAlone shows that an undisturbed program does what Model.lean says.
* **C147** How wide merge_columns makes a column — Wrap/SizedModel: columns with both widths; from C92's rows of cells.
* **C148** The keyword arguments of lines — Lines/KwargsModel: the lines object as a dict of attributes looked up by name, line by line after `__next__`; frame and congruence lemmas, and a simulation with LinesIter (C83).
* **C149** Splitting encoded text by encoded separators — Multisplit/Code and CodeProps: a simulation between the model on characters and the model on bytes along an encoding; every match of the encoded separators starts where a character starts. UTF-8 from Lean's library is shown self-synchronising.
* **C150** split_quoted_strings on encoded text — Quoted/Code and CodeProps: the loop of split_quoted_strings commutes with an aligned encoding (C149); its test for line breaks is shown to be whether the text has one of str's, or bytes', line breaks.
* **C151** split_title_case again, in two steps, or part by part — Words/TitleLaws: the words are determined by where the text is cut (C44), and whether it is cut somewhere does not depend on what precedes or follows an earlier or later cut.
* **C152** split_title_case, gently_title and combine_splits on encoded text — Words/Code and CodeProps: the loops, run on the bytes of a character that is nothing special to them, do what they do on the character; for combine_splits the pieces are determined by the cuts (C45).
* **C153** How int_to_words words a number — IntWords/Layout: the loop over the quantities, started after other strings, does what it does without them; the law of the largest quantity follows, and the rest by strong induction.
* **C154** The lines of text encoded in UTF-8 — Lines/Code, Lines/Code2, Lines/Code3, Lines/CodeProps: each modifier commutes with encoding on pairs whose line is made of characters of the text and whose stripped beginning is ASCII, which each preserves; splitting at separators and at quotes commutes by C149 and C150, and at default line breaks because the encoded parts alternate as the parts do.
* **C155** split_delimiters on text encoded in UTF-8 — Delims/Code, Delims/CodeProps: with single-character delimiters split_delimiters is the obvious parser (C48), for str and for bytes; the parser over the encoded text does for an ASCII character one same step, and for any other takes all bytes as text, also after an escape; the exceptions of the call are those of C48_raises_iff, whose conditions encoding preserves.
* **C156** Searching a file of UTF-8 as text and as bytes — File/Code: splitting at newlines and containment commute with UTF-8 encoding (C149: an encoded text occurs only where the text does, and ASCII bytes in no other character); lines ending in CR LF by induction on the lines, with their numbers.

## Trusted base

* Lean 4.33's kernel.
* The axioms `propext`, `Classical.choice` and `Quot.sound`, and no others. The last section lists which theorem
  depends on which. No axioms are added; nothing is trusted to compiled code.
* Our reading of the Python source in /repo, and of the parts of CPython it calls. The model is a transcription;
  nothing checks it against the running program. What of CPython is written down as a definition, to be read by
  a reviewer: `heapq` (Heap/Model), `re` (Regex/Basic: a backtracking engine with captures, anchors and greedy
  loops; RePart/Model: `finditer`; Multisplit/PatternModel: `re.escape` and the reading of a pattern's text), `str.partition`, `str.split`, `str.splitlines` and their bytes versions
  (Multisplit/PyStr, ByteLines), text-mode line-break translation (File/GrepModel), `lru_cache` as a map with
  arbitrary eviction (Multisplit/CacheModel), C3 linearisation and attribute lookup (BoundInner/Model), the calendar
  and `strftime` (Time/Model), int and float conversion (Builtin/Model).
* Where a library function is a parameter of the model (`isspace`, `upper`, `lower`, codecs, the clock, `sleep`,
  the order in which a set is iterated, user callbacks, user matchers, user iterators), the theorems hold for every value of the
  parameter that meets the stated hypotheses, and an `example` beside them gives one that does.

## Modelled, and not modelled

Every definition cites the lines it models. Code with no model, and why:

| file | modelled | not modelled |
|---|---|---|
| all.py, `__init__.py`, metadata.py | nothing | import-time glue and constants |
| boundinnerclass.py | all | the Python 2-era aliases; deletion of attributes |
| builtin.py | try_*/get_* | `pure_virtual` (always raises), `ModuleManager`-style export helpers |
| deprecated.py | split_quoted_strings, parse_delimiters, lines_strip_comments, the separator tables | `_export*` |
| file.py | grep, fgrep, pushd, safe_mkdir, safe_unlink, touch, both translations | file_size, file_mtime(_ns) (one `stat` call each); permissions; links for pushd and for other processes at work (File/LinkModel.lean has them for safe_mkdir, safe_unlink, touch) |
| graph.py | add, remove, cycle, views (ready, done, reset, copy, `bool`, conflict reporting), static_order, copy | `print`, `repr` |
| heap.py | all of Heap and HeapIterator | — |
| itertools.py | PushbackIterator | `repr` |
| log.py | Log and its print | the clock itself |
| scheduler.py | Event, Scheduler, both regulators; every interleaving of threads, single steps and exceptions of the regulator included (LockModel.lean), shown to be as atomic regions (Model.lean) | `repr`, real time |
| state.py | StateManager, accessor, dispatch, with arbitrary callbacks | the `__signature__` of wrappers |
| text.py | all public functions | the wording of error messages (except C18, C78, C123), some type checks of arguments (those of C74, C80, C83, C84, C85, C111, C122 are modelled) |
| time.py | timestamp_3339Z, timestamp_human, parse_timestamp_3339Z, datetime_ensure_timezone, datetime_set_timezone | NaN, infinities, rounding of float to microseconds; dateutil's parser is a parameter, assumed only to read RFC 3339 texts |
| version.py | parsing, printing, comparison, hash, accessors, keywords, sys.version_info, `repr` | — |

Recursion that Python bounds (RecursionError), the limit on the digits of an int converted to or from str, memory and performance are nowhere modelled. A generator is modelled
as the list it yields and the exception that ends it, except where the interleaving of its steps with other calls is
the point (Heap iterators C02, Scheduler C05–C10, C73, lines C49–C51, C63–C67, patterns C79).

## How the theorems were tested

`seeded/LOG.jsonl` has one line per wrong program tried: hand-written bugs, and a selection of mechanically generated
ones (each constant, operator, comparison and branch of the model definitions, one at a time). Survivors were either
shown to be unobservable, or the theorems were tightened, and the line says which.

## Where the code and its documentation disagree

Where the documentation, or what a user would expect, is false of the code, the failure is a theorem (its name ends in
what goes wrong, in `_counterexample…` or `_violated`). If there is an exact condition under which the expectation
holds, the property is that condition, an "if and only if", and its statement says what the documentation promises
beyond; if not, the property is stated as expected, its status is `partial`, and its `_partial` theorem has the
weakest hypothesis we could find.

* **heap** — `h[-2]` to `h[-9]` give the second largest item, or the largest if there are only that many (C86); `h[-1]` of an empty heap raises ValueError (C86);
  `repr` of an empty heap raises IndexError (C69); `==` of heaps whose items tie without being equal depends on the history (C69); a call that raises because a comparison raises adds or loses items (C116).
* **scheduler** — a wake-up between the release of the lock and the start of the sleep is lost (C114); if wake raises, schedule has queued the event although it raises (C127).
* **graph** — `done(a, a)` decrements twice; `done(valid, invalid)` raises after having released nodes; an edge from a done node makes its
  successor never ready; copies have views that do not know the copied nodes (KeyError on `remove` and `add`), and share lists with the original; `static_order` leaks views; incoherence unreported after `done(a, a)` (C11, C17, C21, C87, C108); `add` with an unhashable dependency raises with half of the work done (C128).
* **version** — equal versions with unequal hashes (C23); `.post` and `.dev` without a number vanish; upper-case pre-release labels fail an assertion (C110);
  keyword construction and strings disagree on trailing zeros, negative numbers, `serial` of a final release (C26); `<=` and `>=` raise TypeError, and the
  README's `release_level='a'` is refused (C101).
* **state** — an exception in `on_exit` or an observer leaves the manager in transition for ever (C112); an observer replaced by an equal one is not called, the old one is (C113).
* **log** — times of one second or more are printed with a wrong fraction (C32); columns are misaligned (C100); `log` of an object without a length raises, but records it; an exit in which the clock raises is not recorded (C130).
* **itertools** — `next()` turns an exception of the wrapped iterator into StopIteration and drops the iterator (C129).
* **file** — exFAT translation turns control characters into `?xx`, which is not legal (C33); `grep` reports an empty line after the last line break (C77); `touch` truncates a file another process makes in the meantime, `safe_unlink` raises if the file vanishes (C119); a `pushd` object remembers where it was made, not where its block is entered (C120).
* **multisplit, multistrip** — a trailing newline after separators stays (C107); separators in an iterator are lost, and bytes/str checks are incomplete (C102);
  patterns are cached by identity, so a changed separator object gives stale results; a list is read only when the generator is started (C103);
  README's replacements for `str.split` fail for separators of several characters (C99); `maxsplit < -1` (C39, C99).
* **gently_title** — the word after a lone `D`, `O`, `D'` or `O'` is not capitalised (C88).
* **split_quoted_strings** — multiline quotes cannot be escaped; overlapping quotes (C89).
* **split_delimiters** — text duplicated with delimiters of several characters (C90); wrong index and delimiter in the SyntaxError (C78); a mapping equal to a changed exported default is ignored (C104).
* **gently_title, normalize_whitespace, split_quoted_strings** — false values other than None refused, apostrophes and quotes of several characters (such as UTF-8 bytes) accepted and ignored (C106); iterators of quotes always refused, a false escape of any type accepted with multiline quotes, an empty string of the other type accepted as no quotes (C85).
* **lines** — column numbers after tabs, wrong piece stripped by `lines_strip` with long separators (C65); two-level dedent (C109); `clip_trailing(line, 0)` clips the whole line, `LineInfo` refuses the `re.Match` that `match` is documented to be, columns count characters but not tabs (C111); after a pair, a two-character str passes for a pair (C105); the SyntaxError for a multiline quote left open gives the column of the last line (C124); comment markers in a set, dict or iterator are refused (C131); `multiline_quotes` given as a string is tested with `in`, so as a substring (C132).
* **wrap_words, split_text_with_code, merge_columns** — C91, C53, C92.
* **int_to_words** — misspellings, double spaces (C55_spelling).
* **re_partition, re_rpartition, reversed_re_finditer** — look-behind; empty matches; not always rightmost first (C93, C94).
* **timestamps** — floats get no microseconds by default; years before 1000 are not padded (C95, C58); the offset of a struct_time is ignored (C117).
* **get_int_or_float and friends** — infinities and NaN raise (C96).
* **BoundInnerClass, threads** — C146 interleaves attribute accesses and direct calls of `__get__` for the class that the
  attribute is; going through `super()` to another class of the same name is in C97 alone. Wrapper construction up to the
  assignment of `__bases__` is one step.
* **BoundInnerClass** — cache keyed by `__name__` (C97).
* **subclasses of str and bytes** — the documentation says that the string functions only return str or bytes objects; when they find nothing to do they return the object they were given (C144), and lines refuses an iterable of such lines (C145).
* **encode_strings** — keys that clash after encoding; subclasses such as namedtuple (C98, C61).
* **deprecated** — RuntimeError when a string ends in an opening quote (C62).

## Axioms each property theorem depends on

Output of `#print axioms` for every theorem named in MANIFEST.json, grouped by the set of axioms.

* **none** (7): BoundInner.C60_class, MS.C72_filters_on_strings, Pushback.C27_exception_swallowed, Pushback.C27_false_iterator_ignored, Time.C58_timezone, Time.C58_year_999, Version.C101_no_le_ge
* **propext** (81): BoundInner.C146_race_breaks, BoundInner.C97_alias, BoundInner.C97_cycle, BoundInner.C97_dead, BoundInner.C97_super_access, Builtin.C96_counterexamples, Builtin.C96_int_of_inf, Builtin.C96_no_raise, Encode.C61_errors, Encode.C61_no_str, Encode.C61_ok, Encode.C61_subclass, Encode.C61_type_error, Encode.C98_clash, Encode.C98_same, File.C156_counterexample_case, File.C35_numbered_unique, File.C77_grep_bytes, File.C77_grep_str, File.C77_lines_unique, File.Fs.C118_touch, File.Fs.C119_counterexample, File.Fs.C120_counterexample_made_before, File.Fs.C36_pushd_exception, File.Fs.C36_touch, Graph.C108_violated_add_to_copy, Graph.C108_violated_add_to_original, Graph.C108_violated_cycle, Graph.C128_counterexample_add, Graph.C128_counterexample_done, Graph.C128_counterexample_hang, Graph.C133_watched, Lines.C111_column_exact, LinesIter.C105_two_characters, LinesIter.C83_first, LinesIter.C83_strings_only, Log.C32_print, MS.C102_iterator_loses_separators, MS.C102_multisplit_separators, MS.C149_utf16_counterexample, MS.C41_errors, MS.C42_multirpartition, MS.C42_negative_count_raises, MS.C43_errors, MS.C64_strip_then_split, MS.C72_defensive_code_adds_str, MS.C72_reversed_tables, MS.C74_multistrip_separators, Pushback.C129_counterexample, SD.C122_delimiter, SD.C122_delimiter_defaults, SD.C122_delimiter_equality, SD.C122_delimiter_value, SQ.C85_empty_multiline_of_the_other_type, SQ.C85_empty_of_the_other_type, SQ.C85_false_escape, SQ.C85_iterators_are_refused, SQ.C85_refuses_the_rest, State.C112_quiet, State.C113_stale_observer, State.C28_constructor, State.C28_reads, State.C28_refused, State.C30_accessor_set, State.C30_dispatch_calls, State.C30_dispatch_follows_state, State.C30_state_is_last_switch, Sub.C144_multistrip_documentation, Sub.C145_mixed, Time.C141_set_and_ensure, Time.C58_human_default, Time.C95_default, Time.C95_float_default, Version.C22_eq_equivalence, Words.C106_false_is_not_the_default, Words.C106_other_type, Words.C106_utf8_apostrophes, Words.C136_gently_title_again, Words.C152_title_counterexample, Words.C84_gently_title_wrong_type, Wrap.C91_two_spaces_ignored
* **propext, Quot.sound** (127): BoundInner.C146_deaths, BoundInner.C146_race_differs, BoundInner.C97_same, Builtin.C59_get_float, Builtin.C59_get_int, Builtin.C59_try_float, Builtin.C59_try_int, Builtin.C96_doc_unique, DP.C62_parse_checks, DP.C62_parse_typeError, DQ.C62_quoted_total, Encode.C98_ascii, Encode.C98_text, File.C136_exfat_fixed, File.C156_counterexample_cr, File.C33_exfat_legal, File.C33_nonempty, File.C33_violated, File.C34_unix, File.C35_fgrep, File.C35_fgrep_ci, File.C35_grep, File.C77_fgrep_str, File.C77_line_after_the_last, File.C77_raises, File.Fs.C118_alone, File.Fs.C118_only, File.Fs.C118_safe_mkdir, File.Fs.C119_safe_unlink_raises_iff, File.Fs.C120_returns_iff, File.Fs.C120_with_pushd, File.Fs.C36_pushd, File.Fs.C36_pushd_enter, File.Fs.C36_pushd_records, File.Fs.C36_safe_unlink, File.Fs.C36_touch_succeeds, Graph.C108_copy_unaffected_partial, Graph.C128_hashable, Graph.C138_every_text, Graph.C138_invalid, Heap.C02_queue_sorted, Heap.C03_raises_iff, Lines.C109_dedent_accepted, Lines.C111_clip_nothing, Lines.C111_column_tab, Lines.C123_same_as_C66, Lines.C131_filter_markers, Lines.C131_refuses_empty, Lines.C131_refuses_other_iterables, Lines.C131_strip_markers, Lines.C131_wrong_type, Lines.C131_wrong_type_quotes, Lines.C132_multiline_text, Lines.C137_convert_tabs_twice, Lines.C137_filter_empty_before, Lines.C137_strip_and_rstrip, Lines.C137_strip_twice, Lines.C139_in_order, Lines.C139_indent, Lines.C139_no_match, Lines.C139_none_twice, Lines.C154_counterexamples, Lines.C49_lines_of_iterable, Lines.C51_blank_lines, Lines.C51_indent_is_the_number_of_levels, Lines.C51_refused, Lines.C63_filter_empty_lines, Lines.C63_lines_containing, Lines.C63_lines_grep, Lines.C66_state_is_threaded, Lines.C67_lines_rstrip, Lines.C67_lines_strip, Lines.C82_at_once, Lines.C82_exceptions_pass, Lines.C82_indent_holds_blank_lines, Lines.C82_one_at_a_time, Lines.C82_sort_waits, Lines.C82_streaming, LinesIter.C105_pairs_only, LinesIter.C83_pairs, LinesIter.C83_well_formed, LinesKw.C148_harmless, LinesKw.C148_i_other, LinesKw.C148_readable, MS.C102_iterator_all_options, MS.C102_iterator_loses_separators_maxsplit, MS.C102_iterator_progressive, MS.C149_one_byte_aligned, MS.C38_inner_texts_nonempty, MS.C38_separator_pieces, MS.C38_splits_unique, MS.C38_texts_contain_no_separator, MS.C42_multipartition_is_multisplit, MS.C43_whitespace_tables, MS.C64_progressive_unlimited, MS.C74_multistrip_refuses, MS.C79_multistrip, MS.C79_separators_unchanged, Pushback.C27_finite, Pushback.C27_nested, Pushback.C27_none, Pushback.C27_pushback_is_stack, SD.C122_delimiter_iff, SQ.C150_counterexample, SQ.C85_arguments, SQ.C85_empty_quote, SQ.C85_iterator_error, SQ.C85_wrong_escape_or_state, SQ.C85_wrong_quotes, SQ.C89_one_reading, State.C28_locked_while_transitioning, State.C28_result, Sub.C144_normalize, Sub.C145_lines, Sub.C145_pairs, Time.C141_default_timezone, Time.C58_human_local, Version.C26_fields, Words.C106_empty_iterator, Words.C106_long_strings_are_ignored, Words.C106_refuses_exactly, Words.C136_gently_title_bytes, Words.C46_only_word_initial, Words.C84_gently_title, Wrap.C147_min_width_ignored, Wrap.C52_greedy, Wrap.C52_words_kept
* **propext, Classical.choice, Quot.sound** (493): BoundInner.C146_alone, BoundInner.C146_alone_direct, BoundInner.C146_equivalent, BoundInner.C146_receives, BoundInner.C146_settles, BoundInner.C60_mro, BoundInner.C60_super, BoundInner.C60_unbound, BoundInner.C97_alias_rebinds, BoundInner.C97_direct_rebinds, BoundInner.C97_distinct, BoundInner.C97_distinct_names, BoundInner.C97_receives, BoundInner.C97_receives_own_name, Builtin.C96_int_or_float, Builtin.C96_int_or_float_documented, Builtin.C96_int_or_float_raises, DC.C62_strip_comments, DC.C62_strip_comments_fault, DC.C62_strip_comments_line, DP.C62_parse_errors, DP.C62_parse_exact, DP.C62_parse_mismatched, DP.C62_parse_rejoin, DP.C62_parse_tuples, DP.C62_parse_unclosed, DQ.C62_quoted_exact, DQ.C62_quoted_fault, DQ.C62_quoted_raises, DQ.C62_quoted_rejoin, Encode.C98_ascii_str, Encode.C98_same_iff, File.C136_exfat_idempotent, File.C136_exfat_twice, File.C156_crlf, File.C156_fgrep, File.C156_fgrep_case_insensitive, File.C156_grep, File.C33_exfat_iff, File.C77_fgrep_bytes, File.C77_grep_raises, File.Fs.C119_touch_keeps_contents, File.Fs.C119_touch_keeps_contents_iff, File.Fs.C36_safe_mkdir, File.Fs.C36_safe_mkdir_succeeds, File.Links.C125_paths, File.Links.C125_safe_mkdir, File.Links.C125_safe_mkdir_only, File.Links.C125_safe_mkdir_returns, File.Links.C125_safe_unlink, File.Links.C125_safe_unlink_keeps_target, File.Links.C125_touch, File.Links.C125_touch_returns, Graph.C108_like_the_original_partial, Graph.C108_violated_add_dependency, Graph.C108_violated_remove, Graph.C11_ready_after_predecessors_partial, Graph.C11_violated_by_repeated_argument, Graph.C128_add, Graph.C128_done, Graph.C128_failed_add_forgets, Graph.C128_raises_nothing_changed, Graph.C12_yield_at_most_once, Graph.C133_after_dependencies, Graph.C133_after_dependencies_edited, Graph.C133_first, Graph.C133_late_node_hangs, Graph.C133_once, Graph.C133_resumes, Graph.C133_stuck_forever, Graph.C133_undisturbed_ends, Graph.C133_undisturbed_order, Graph.C138_cycle, Graph.C138_same_word, Graph.C138_sorts, Graph.C13_static_order, Graph.C13_static_order_cycle, Graph.C14_counting_terminates, Graph.C14_cycle_sound_complete, Graph.C14_search_terminates, Graph.C15_graph_is_union, Graph.C15_repetition_irrelevant, Graph.C16_remove_absent, Graph.C16_remove_exact, Graph.C16_scan_finds_all, Graph.C17_loop_finishes_partial, Graph.C17_progress_partial, Graph.C17_violated_by_late_edge, Graph.C18_message_true, Graph.C18_never_on_coherent, Graph.C18_remove_restores, Graph.C19_reset_is_fresh, Graph.C19_views_independent, Graph.C20_original_unaffected, Graph.C21_ready_exact_partial, Graph.C21_violated_by_invalid_argument, Graph.C87_bool_partial, Graph.C87_done_partial, Graph.C87_message_complete_partial, Graph.C87_ready_partial, Graph.C87_violated_by_repeated_argument, Heap.C01_copy_is_priority_queue, Heap.C01_errors_leave_heap_unchanged, Heap.C01_heap_is_priority_queue, Heap.C02_iteration_sorted, Heap.C02_iterator_invalidated, Heap.C02_next_keeps_version, Heap.C03_slice, Heap.C03_slice_any_step, Heap.C04_append_and_popleft, Heap.C04_append_and_popleft_eq, Heap.C04_popleft_and_append, Heap.C115_iterators, Heap.C115_next, Heap.C115_next_changed, Heap.C115_next_no_faults, Heap.C115_no_faults, Heap.C115_raises, Heap.C115_repair, Heap.C115_what_is_left, Heap.C116_changed, Heap.C116_contents_iff, Heap.C116_counterexample_order_lost, Heap.C116_unchanged, Heap.C69_bool_and_repr, Heap.C69_contents, Heap.C69_copy_eq, Heap.C69_eq_equivalence, Heap.C69_eq_iff_indistinguishable, Heap.C69_eq_iff_perm, Heap.C69_eq_iff_same_bag, Heap.C69_eq_sound, Heap.C69_eq_ties_differ, Heap.C69_in_iff_removable, Heap.C69_len_counts_poplefts, Heap.C86_boundary_index_value, Heap.C86_index, Heap.C86_index_iff, Heap.C86_negative_index_value, Heap.C86_negative_index_wrong, IntWords.C153_flowery, IntWords.C153_negative, IntWords.C153_quantities, IntWords.C153_small, IntWords.C55_injective, IntWords.C55_letters, IntWords.C55_outside, IntWords.C55_reads, IntWords.C55_spelling, Lines.C109_counterexample_dedent_two_levels, Lines.C111_column_no_tabs, Lines.C111_constructor, Lines.C111_match_refused, Lines.C123_message, Lines.C123_single_line, Lines.C124_column, Lines.C124_column_iff, Lines.C124_counterexample_multiline, Lines.C131_mixed_types, Lines.C131_other_type, Lines.C132_counterexample, Lines.C132_exactly, Lines.C137_comments_and_strip, Lines.C137_filters_commute, Lines.C137_order_matters, Lines.C137_sort, Lines.C139_match_stays, Lines.C142_lines_splitlines, Lines.C142_lines_splitlines_bytes, Lines.C142_without_empty_lines, Lines.C154_lines, Lines.C154_separators, Lines.C49_lines_of_text, Lines.C50_assertion_fails_without_tab_width, Lines.C50_chains_keep_lines_whole, Lines.C50_convert_tabs_changes_lines, Lines.C50_no_assertion_fails, Lines.C51_hypotheses_hold, Lines.C63_filter_line_comment_lines, Lines.C63_lines_sort, Lines.C63_marker_with_whitespace, Lines.C65_column_number_no_tabs, Lines.C65_column_number_of_pieces, Lines.C65_counterexample_partition, Lines.C65_counterexample_two_clips, Lines.C65_counterexample_whole_line, Lines.C66_line_comment, Lines.C66_no_quotes, Lines.C67_strip_separators, Lines.C81_clip, Lines.C81_modifier, LinesIter.C83_strings, LinesKw.C148_detab, LinesKw.C148_i_iterable, LinesKw.C148_i_text, LinesKw.C148_is_pairs_iterable, LinesKw.C148_is_pairs_text, LinesKw.C148_iterable, LinesKw.C148_line_number, LinesKw.C148_parameters, LinesKw.C148_s_is_bytes, LinesKw.C148_separators, LinesKw.C148_text, Log.C100_columns, Log.C100_columns_iff, Log.C100_misaligned, Log.C130_as_documented, Log.C130_counterexample_exit, Log.C130_counterexample_log, Log.C130_raises, Log.C130_raises_nothing_changed, Log.C130_what_is_left, Log.C31_elapsed, Log.C31_end, Log.C31_end_reading, Log.C31_end_stale, Log.C31_enter, Log.C31_exit, Log.C31_exit_unmatched, Log.C31_log, Log.C31_start, Log.C31_starts_sorted, Log.C32_negative, Log.C32_right_iff, Log.C32_shown, Log.C32_violated, Log.C70_dashes, Log.C70_headings, Log.C70_lines, MS.C102_counterexample_empty_iterator, MS.C102_counterexample_iterator, MS.C103_exact, MS.C103_list_changed_before_start, MS.C103_stale_pattern, MS.C103_unchanged, MS.C107_counterexample_idempotent, MS.C107_counterexample_trailing_newline, MS.C107_multistrip, MS.C107_multistrip_idempotent, MS.C107_only_separators_iff, MS.C107_violated, MS.C140_comment_pattern, MS.C140_separators_are_literal, MS.C140_strip_patterns, MS.C149_multipartition, MS.C149_multisplit, MS.C149_multistrip, MS.C149_normalize_whitespace, MS.C149_utf8, MS.C149_utf8_aligned, MS.C37_multisplit_item_shape, MS.C37_multisplit_keep_lossless, MS.C38_multipartition_set, MS.C38_multisplit_set, MS.C38_multisplit_splits_exactly, MS.C38_multistrip_set, MS.C39_at_most_maxsplit_splits, MS.C39_maxsplit_makes_the_first_splits, MS.C39_maxsplit_none, MS.C39_maxsplit_zero_or_negative, MS.C40_reverse_irrelevant_for_single_characters, MS.C40_reverse_matters_for_long_separators, MS.C40_reverse_mirrors_forward, MS.C41_multistrip_general, MS.C41_strips, MS.C42_multipartition_rejoins, MS.C43_fast_path_agrees, MS.C43_idempotent, MS.C43_runs_become_the_replacement, MS.C64_counterexample_maxsplit_none, MS.C64_progressive_all_space, MS.C64_progressive_is_str_split, MS.C68_convert_from_pairs, MS.C68_readme_partition, MS.C68_readme_split_none, MS.C68_readme_splitlines, MS.C68_split_is_str_split, MS.C72_bytes_split_none, MS.C72_bytes_splitlines, MS.C72_bytes_tables, MS.C72_space_sets, MS.C72_str_linebreak_tables, MS.C72_str_whitespace_tables, MS.C74_kinds, MS.C74_multisplit_refuses, MS.C99_counterexample_long_separator, MS.C99_counterexample_negative_maxsplit, MS.C99_readme_split, MS.C99_readme_split_iff, Pushback.C129_next_method, Pushback.C129_next_swallows, Pushback.C129_passes_exceptions, RePart.C143_partition, RePart.C143_reversed_finditer, RePart.C143_rpartition, RePart.C143_rpartition_differs, RePart.C56_empty_match, RePart.C56_partition, RePart.C56_raises, RePart.C56_rpartition, RePart.C56_rraises, RePart.C57_complete, RePart.C57_disjoint, RePart.C57_not_rightmost, RePart.C57_nothing, RePart.C57_terminates, RePart.C57_true_matches, RePart.C93_exact_iff, RePart.C93_not_exact, RePart.C93_rexact_iff, RePart.C93_textual, RePart.C93_textual_exact, RePart.C93_textual_rexact, RePart.C94_at_most_twice, RePart.C94_not_strict, RePart.C94_strict, RePart.C94_strict_but_for_empty, RePart.C94_twice_only_empty, SD.C104_call, SD.C104_changed_default, SD.C104_exported, SD.C122_accepts_iff, SD.C122_refuses, SD.C122_type_error, SD.C155_counterexample, SD.C155_counterexample_not_ascii, SD.C155_utf8, SD.C48_delimiters_nest, SD.C48_raises_iff, SD.C48_single_character_parser, SD.C75_resume, SD.C78_message, SD.C78_no_quotes, SD.C78_right_iff, SD.C78_violated, SD.C80_default, SD.C80_order, SD.C80_own_mapping, SD.C90_counterexample_text_duplicated, SD.C90_lossless_no_ignored_tokens, SD.C90_lossless_single_characters, SD.C90_nothing_lost, SD.C90_rereads, SQ.C150_multiline, SQ.C150_no_exception, SQ.C150_utf8, SQ.C47_raises_iff, SQ.C47_split_quoted_strings, SQ.C76_line_by_line, SQ.C76_resume, SQ.C85_kinds, SQ.C89_counterexample_multiline_escape, SQ.C89_counterexample_overlapping_quotes, SQ.C89_exact, SQ.C89_no_unescaped_quote, Scheduler.C05_schedule_due_time, Scheduler.C05_yields_least_due, Scheduler.C06_exactly_one, Scheduler.C06_never_broken, Scheduler.C06_no_loss_no_duplication, Scheduler.C07_cancel_gone, Scheduler.C07_cancel_queued, Scheduler.C08_non_blocking_drain, Scheduler.C09_queue_predicts, Scheduler.C09_stop_iff_empty, Scheduler.C10_waiting_is_woken, Scheduler.C114_lost_wakeup, Scheduler.C114_missed, Scheduler.C73_event_cancel, Scheduler.C73_for_loop, Scheduler.C73_next_ends, Scheduler.C73_non_blocking, Scheduler.C73_sleeps_at_most_once, Scheduler.Fine.C126_atomic, Scheduler.Fine.C126_exclusive, Scheduler.Fine.C126_no_loss, Scheduler.Fine.C126_protocol, Scheduler.Fine.C126_released, Scheduler.Fine.C126_results, Scheduler.Fine.C126_returned_once, Scheduler.Fine.C126_schedule_call, Scheduler.Fine.C126_wakes, Scheduler.Fine.C127_counterexample_wake, Scheduler.Fine.C127_raises, Scheduler.Fine.C127_raises_nothing_done, State.C112_exactly, State.C112_violated, State.C113_observers, State.C113_observers_distinct, State.C28_protocol, State.C29_old_state, Sub.C144_multipartition, Sub.C144_multisplit, Sub.C144_multistrip, Sub.C144_re_partition, Sub.C144_re_rpartition, Sub.C145_text, Time.C117_counterexample_utc, Time.C117_right, Time.C117_struct_time_iff, Time.C117_violated_gmt_offset, Time.C141_round_trip, Time.C58_format, Time.C58_human_reads, Time.C58_order, Time.C58_raises, Time.C58_reads, Time.C58_utc, Time.C95_float_counterexample, Version.C101_level_keyword, Version.C101_operators, Version.C110_equal_spellings, Version.C110_normalises, Version.C110_normalises_iff, Version.C110_violated_case, Version.C110_violated_post, Version.C121_construct_iff, Version.C121_refuses, Version.C121_repr, Version.C22_eq_is_documented, Version.C22_order_is_documented, Version.C22_transitive, Version.C22_trichotomy, Version.C23_hash_iff, Version.C23_hash_written_alike, Version.C23_violated, Version.C24_str_roundtrip, Version.C25_case, Version.C25_lower_case_never_asserts, Version.C25_same_fields_equal, Version.C25_spelling, Version.C26_keywords_iff, Version.C26_keywords_survive, Version.C26_violated, Version.C71_accessors, Version.C71_equal_versions_agree, Version.C71_version_info, Version.C71_version_info_order, Words.C106_gently_title_refuses, Words.C135_counterexample_too_long, Words.C135_nested, Words.C135_none, Words.C135_one, Words.C135_only_the_cuts_matter, Words.C135_order_and_repetition, Words.C136_counterexample_letter_as_quote, Words.C151_again, Words.C151_in_two_steps, Words.C151_separately, Words.C152_combine_splits, Words.C152_gently_counterexamples, Words.C152_gently_title, Words.C152_split_title_case, Words.C44_split_title_case, Words.C44_splits_before_capitals, Words.C45_combine_splits, Words.C45_counterexample_unnoticed, Words.C45_too_long, Words.C45_union_of_boundaries, Words.C84_defaults, Words.C84_normalize_whitespace, Words.C84_normalize_whitespace_refuses, Words.C88_counterexample_word_after_D, Words.C88_every_word, Words.C88_exact, Words.C88_missed, Wrap.C134_again, Wrap.C134_counterexample_code_again, Wrap.C134_counterexample_ends_in_code, Wrap.C134_no_code, Wrap.C134_words_of_wrapped, Wrap.C134_words_of_wrapped_text, Wrap.C147_example, Wrap.C147_width, Wrap.C53_counterexample_assertion, Wrap.C53_counterexample_code_again, Wrap.C53_counterexample_last_line, Wrap.C53_elements, Wrap.C53_exact, Wrap.C53_layout, Wrap.C53_layout_iff, Wrap.C53_loses_nothing, Wrap.C53_raises, Wrap.C54_no_overflow, Wrap.C54_raises, Wrap.C54_rows, Wrap.C91_counterexample_two_spaces_ignored, Wrap.C91_counterexample_whitespace_word, Wrap.C91_margin, Wrap.C92_aligned, Wrap.C92_aligned_iff, Wrap.C92_counterexample_after, Wrap.C92_counterexample_trailing
