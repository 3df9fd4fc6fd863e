{"id": "C01", "title": "Heap is a priority queue for every history", "statement": "For every sequence of Heap operations (construct from iterable, append, extend, remove, popleft, append_and_popleft, popleft_and_append, clear, copy), the heap holds exactly the multiset of values added and not yet removed; popleft and heap[0] give a value v in the heap such that no value in the heap is < v; popleft/heap[0]/popleft_and_append on an empty heap raise IndexError and remove of an absent value raises ValueError, in each case leaving the contents unchanged.", "quantifier": "every finite operation sequence, every element type whose < is a strict weak order", "why_tests_cant": "the set of histories and heap shapes is infinite; sift-up/sift-down bugs appear only for particular shapes", "anchors": ["big/heap.py:Heap"]}
{"id": "C02", "title": "Heap iteration and .queue are sorted", "statement": "Iterating a Heap that is not modified meanwhile yields all its values, each as many times as it is held, in non-decreasing order, without changing the heap, and Heap.queue is a sorted permutation of the contents; after any mutation every outstanding iterator raises RuntimeError on its next use.", "quantifier": "every reachable heap, every interleaving of iterator use and mutation", "why_tests_cant": "tests sample a few heaps; iteration order depends on every internal layout", "anchors": ["big/heap.py:Heap.queue", "big/heap.py:Heap.HeapIterator"]}
{"id": "C03", "title": "Heap slicing agrees with the sorted list", "statement": "For every heap h and every slice sl, with any start, stop and step: h[sl] equals sorted(h)[sl] (up to values that compare equivalent), and both raise ValueError for a step of 0.", "quantifier": "every heap, every slice: any start, stop and step", "why_tests_cant": "slices are special-cased in three branches, each for unbounded ranges of start and stop; tests only touch small ones", "anchors": ["big/heap.py:Heap.__getitem__"]}
{"id": "C04", "title": "Heap combined operations equal their parts", "statement": "append_and_popleft(x) returns what append(x);popleft() returns and leaves the same multiset; popleft_and_append(x) returns what popleft() would return and leaves the multiset of popleft();append(x).", "quantifier": "every reachable heap, every x", "why_tests_cant": "the equivalence must hold for every heap shape and value, including x smaller than everything", "anchors": ["big/heap.py:Heap.append_and_popleft", "big/heap.py:Heap.popleft_and_append"]}
{"id": "C05", "title": "Scheduler yields events in (time, priority, insertion) order and never early", "statement": "Every event yielded by iterating a Scheduler (blocking or not) has time <= the regulator's now at the moment it is yielded, and is the least, by (time, priority, order of scheduling), of all events then in the queue.", "quantifier": "every history of schedule/cancel/next and every clock behaviour", "why_tests_cant": "the order must hold for every mix of times, priorities, cancellations and clock readings", "anchors": ["big/scheduler.py:Scheduler._next", "big/scheduler.py:Event.__lt__"]}
{"id": "C06", "title": "Scheduler neither loses nor duplicates events under any interleaving", "statement": "For any interleaving of threads each running schedule, cancel and next against one Scheduler with a correct lock, every scheduled event is at every moment exactly one of: still queued, yielded exactly once to one thread, or cancelled exactly once.", "quantifier": "every number of threads and every interleaving of their critical sections", "why_tests_cant": "interleavings are unbounded; a stress test samples a few", "anchors": ["big/scheduler.py:Scheduler.schedule", "big/scheduler.py:Scheduler.cancel", "big/scheduler.py:Scheduler._next"]}
{"id": "C07", "title": "Cancel removes exactly its event", "statement": "cancel(e) of a queued event removes e and no other event (even events equal in time and priority); cancelling an event that was yielded or cancelled already raises ValueError and changes nothing.", "quantifier": "every reachable scheduler state and event", "why_tests_cant": "depends on identity versus ordering equality of events in every state", "anchors": ["big/scheduler.py:Scheduler.cancel", "big/heap.py:Heap.remove"]}
{"id": "C08", "title": "non_blocking yields exactly the due events", "statement": "With the clock fixed at now and no concurrent changes, draining non_blocking() yields exactly the queued events with time <= now, in order, and leaves exactly the others queued, then stops without sleeping.", "quantifier": "every scheduler state and every now", "why_tests_cant": "every queue content and time boundary", "anchors": ["big/scheduler.py:Scheduler.non_blocking", "big/scheduler.py:Scheduler._next"]}
{"id": "C09", "title": "Blocking iteration ends only when the queue is empty, and Scheduler.queue predicts it", "statement": "Blocking next raises StopIteration only if no event is queued at that moment; otherwise it returns a queued event or keeps waiting; Scheduler.queue lists precisely the order in which the queued events would be yielded if nothing else is scheduled.", "quantifier": "every schedule and clock", "why_tests_cant": "universally quantified over clock behaviour and wakeups", "anchors": ["big/scheduler.py:Scheduler._next", "big/scheduler.py:Scheduler.queue"]}
{"id": "C10", "title": "A sleeping consumer is woken by every queue change", "statement": "If a thread is asleep in a Scheduler using ThreadSafeRegulator because the earliest event is in the future, and another thread schedules an event or cancels one, the sleeping thread re-examines the queue rather than sleeping out its original interval.", "quantifier": "every interleaving of a consumer with producers", "why_tests_cant": "the losing interleaving is a window of a few bytecodes between releasing the lock and event.wait", "anchors": ["big/scheduler.py:ThreadSafeRegulator.wake", "big/scheduler.py:ThreadSafeRegulator.sleep", "big/scheduler.py:Scheduler._next"]}
{"id": "C11", "title": "ready() never yields a node before its predecessors are done", "statement": "In every history of graph and view operations, whenever ready() returns a node on a coherent view, every node it depends on in the current graph has been marked done in that view.", "quantifier": "every history of add/remove/ready/done/reset/view", "why_tests_cant": "depends on predecessor counts kept incrementally across arbitrary graph edits made mid-iteration", "anchors": ["big/graph.py:TopologicalSorter.View.ready", "big/graph.py:TopologicalSorter.View.done", "big/graph.py:TopologicalSorter.add", "big/graph.py:TopologicalSorter.remove"]}
{"id": "C12", "title": "A view yields each node at most once", "statement": "Between resets, and unless the node is removed and re-added, a view's ready() never returns the same node twice, neither within one tuple nor across calls.", "quantifier": "every history of operations on a graph and its views", "why_tests_cant": "every edit history", "anchors": ["big/graph.py:TopologicalSorter.View.ready"]}
{"id": "C13", "title": "static_order is a complete topological order", "statement": "For every graph built by any sequence of add and remove that is acyclic, static_order() terminates and yields every node exactly once, each after all nodes it depends on; if the graph has a cycle it raises CycleError before yielding anything.", "quantifier": "every finite graph and construction history", "why_tests_cant": "all graphs", "anchors": ["big/graph.py:TopologicalSorter.static_order"]}
{"id": "C14", "title": "cycle() is sound and complete", "statement": "After any sequence of add and remove calls, cycle() returns None if and only if the dependency graph is acyclic; otherwise it returns a non-empty tuple of distinct nodes in which each node has an edge to the next and the last to the first. It always terminates.", "quantifier": "every graph and every history, including repeated calls", "why_tests_cant": "includes the caching 'dirty' flag across arbitrary histories", "anchors": ["big/graph.py:TopologicalSorter.cycle", "big/graph.py:TopologicalSorter.check_for_cycles"]}
{"id": "C15", "title": "add builds the union of dependencies", "statement": "After any sequence of add and remove, the graph's nodes are exactly those mentioned and not since removed and its edges exactly those added whose endpoints were not since removed; repeating or reordering dependencies in add changes neither.", "quantifier": "every sequence of adds and removes", "why_tests_cant": "all histories", "anchors": ["big/graph.py:TopologicalSorter.add", "big/graph.py:TopologicalSorter.remove"]}
{"id": "C16", "title": "remove deletes exactly one node and its edges", "statement": "remove(n) deletes n and all edges at n and nothing else, in the graph; removing an absent node raises ValueError and changes nothing. In particular the early-exit scan for predecessors finds all of them.", "quantifier": "every reachable graph and node", "why_tests_cant": "the early exit relies on stored predecessor counts being exact in every history", "anchors": ["big/graph.py:TopologicalSorter.remove"]}
{"id": "C17", "title": "A coherent view on an acyclic graph always makes progress", "statement": "If a view is coherent, the graph acyclic, and not all nodes are done, then some node is available from ready() or has been yielded and not yet marked done; so loops 'while v: for n in v.ready(): ... v.done(n)' terminate having yielded all nodes.", "quantifier": "every history of edits and view operations", "why_tests_cant": "a stuck view appears only after particular mid-iteration edits", "anchors": ["big/graph.py:TopologicalSorter.View._add_successor", "big/graph.py:TopologicalSorter.View.done"]}
{"id": "C18", "title": "Incoherence is never reported wrongly, and can be repaired", "statement": "In every history bool(view), ready() and done() raise RuntimeError only if the current graph has an edge Y->Z such that Z was yielded or done in that view while Y is not done in it; the message names only such dependencies; removing either node of each restores coherence.", "quantifier": "every history of operations", "why_tests_cant": "every history", "anchors": ["big/graph.py:TopologicalSorter.View._add_successor", "big/graph.py:TopologicalSorter.View._remove_node"]}
{"id": "C19", "title": "Views are independent and reset is a fresh view", "statement": "ready/done/reset/close on one view never changes what another view of the graph returns; after reset a view behaves exactly like one newly returned by graph.view().", "quantifier": "every pair of views and operation history", "why_tests_cant": "aliasing between views would show only in some histories", "anchors": ["big/graph.py:TopologicalSorter.view", "big/graph.py:TopologicalSorter.View.reset", "big/graph.py:TopologicalSorter.View.copy"]}
{"id": "C20", "title": "A copy never affects its original", "statement": "After c = g.copy(), whatever is done to c, or with its views, in whatever order with what is done to g: g and its views answer as they would if c did not exist.", "quantifier": "every reachable graph and later operations on either", "why_tests_cant": "aliasing bug needs a particular later operation to show", "anchors": ["big/graph.py:TopologicalSorter.copy"]}
{"id": "C21", "title": "done() counts each node once", "statement": "Marking a node done, however often it is repeated in the arguments and even if another argument in the call is invalid, releases a successor only when all of that successor's predecessors are done.", "quantifier": "every argument tuple in every reachable view", "why_tests_cant": "tests never pass duplicates together with multi-predecessor graphs", "anchors": ["big/graph.py:TopologicalSorter.View.done"]}
{"id": "C22", "title": "Version comparison is a total order following PEP 440 fields", "statement": "For all versions a, b, c: exactly one of a<b, a==b, b<a holds; < is transitive; == is an equivalence compatible with <; the order is: epoch, then release, then alpha<beta<rc<final, then serial, then no-post<post, then dev<no-dev, then local.", "quantifier": "all triples of versions", "why_tests_cant": "three-way laws over all field combinations", "anchors": ["big/version.py:Version.__lt__", "big/version.py:Version.__eq__"]}
{"id": "C23", "title": "Which equal versions hash equally", "statement": "For versions a == b: hash(a) == hash(b), whatever the hashes of the fields are, if and only if a and b have the same local label and either both or neither of these hold: the epoch is given or absent in both alike; the serial is given or absent in both alike. (So equal versions written alike hash equally, but 1.0 and 0!1.0, which are equal, do not: versions are not reliable dict keys.)", "quantifier": "all pairs of versions", "why_tests_cant": "needs pairs that are equal with different internal representations", "anchors": ["big/version.py:Version.__hash__", "big/version.py:Version.__eq__"]}
{"id": "C24", "title": "str of a parsed version parses back to an equal version", "statement": "For every string s accepted by Version(s): Version(str(Version(s))) is accepted and == Version(s).", "quantifier": "all accepted strings", "why_tests_cant": "infinitely many strings; regex backtracking", "anchors": ["big/version.py:Version.__init__", "big/version.py:Version.__str__"]}
{"id": "C25", "title": "Spelling of a version does not matter", "statement": "Two ways of writing a version that mean the same according to PEP 440 (leading v, surrounding whitespace, separators, alternative labels, leading zeros, trailing '.0', absent pre-release number), with a number after post, and after dev, in both or none, are both accepted and give equal versions; letter case does not decide whether a string is refused with ValueError nor change any field of the version.", "quantifier": "all accepted strings", "why_tests_cant": "all combinations of optional parts", "anchors": ["big/version.py:Version.__init__"]}
{"id": "C26", "title": "Which keyword-constructed versions survive str", "statement": "If v = Version(**fields) succeeds, each field is the one given, and str(v) can be parsed and gives an equal version if and only if the release has no negative number and no zero at its end (unless it is one number), a final release has no serial, and the local segments are ASCII letters and digits. (The constructor accepts all the other fields too.)", "quantifier": "all field combinations accepted by the constructor", "why_tests_cant": "combinatorial space of fields", "anchors": ["big/version.py:Version.__init__", "big/version.py:Version.__str__"]}
{"id": "C27", "title": "PushbackIterator behaves like a stack in front of the wrapped iterator", "statement": "For every sequence of push, next(), .next(default) and bool(): values come out in the order 'most recently pushed first, then the wrapped iterator', nothing is lost or duplicated, bool() is true exactly when another value is available and does not change what will be yielded, and after exhaustion push makes it usable again.", "quantifier": "every interleaving of operations and every wrapped finite sequence", "why_tests_cant": "unbounded interleavings", "anchors": ["big/itertools.py:PushbackIterator"]}
{"id": "C28", "title": "StateManager callback protocol", "statement": "A transition from A to B calls, in order, A.on_exit, then an observer for each in the list when observers began being called (that one, or one that compares equal to it), then switches state, then B.on_enter; during on_exit and observers state is A and next is B, and any attempted transition raises TransitionError; during on_enter next is None and transitions are permitted; transitions to the current state, to None or to an object of the wrong class raise and change nothing.", "quantifier": "every callback behaviour, every nesting of transitions", "why_tests_cant": "callbacks are arbitrary programs", "anchors": ["big/state.py:StateManager"]}
{"id": "C29", "title": "A failed transition leaves the StateManager in the old state", "statement": "If on_exit or an observer raises, the assignment raises and the manager is still in the old state.", "quantifier": "every crash point inside a transition", "why_tests_cant": "every crash point", "anchors": ["big/state.py:StateManager.state"]}
{"id": "C30", "title": "dispatch and accessor follow the current state", "statement": "A dispatched event method calls the like-named method (with prefix and suffix) on whatever state object is current at call time, through any history of transitions.", "quantifier": "every history of transitions and dispatches", "why_tests_cant": "all histories", "anchors": ["big/state.py:dispatch", "big/state.py:accessor"]}
{"id": "C31", "title": "Log records what happened", "statement": "After any sequence of log, enter, exit and reset calls with a monotone clock, iterating yields one tuple per logged event since the last reset, in order, starting with ('log start', 0); start times are non-decreasing, each elapsed is the gap to the next event, elapsed times sum to the last start time, depth equals the number of open enters, and each exit is labelled with the subsystem of its matching enter. If anything has been logged since the last reset, log.end is the start time of the last event.", "quantifier": "every call sequence and monotone clock", "why_tests_cant": "all sequences", "anchors": ["big/log.py:Log"]}
{"id": "C32", "title": "Which recorded times Log.print shows right", "statement": "The time column printed for an event shows the seconds of its time, and its nanoseconds truncated to the requested width, for every time within the second number s if and only if s is 0 or no fraction is shown. In any later second the digits shown are those of the nanoseconds less the number of seconds, and wrong at least for the whole second. A time before the start (from a clock that goes back) is always shown wrong: one second early at least, with a second minus sign in the fraction.", "quantifier": "every time value and width", "why_tests_cant": "values of a second or more are rare in tests", "anchors": ["big/log.py:Log.print"]}
{"id": "C33", "title": "Which filenames translate_filename_to_exfat makes legal", "statement": "For every non-empty string the result is non-empty, and it contains no character that exFAT forbids if and only if the string has no control character U+0001 to U+001F. (Those become a question mark, which exFAT forbids.)", "quantifier": "all non-empty strings", "why_tests_cant": "all characters in all contexts", "anchors": ["big/file.py:translate_filename_to_exfat"]}
{"id": "C34", "title": "translate_filename_to_unix returns a legal Unix filename", "statement": "For every non-empty string the result has the same length, contains no NUL or slash, differs only at those characters, and translating again changes nothing.", "quantifier": "all non-empty strings", "why_tests_cant": "all strings", "anchors": ["big/file.py:translate_filename_to_unix"]}
{"id": "C35", "title": "fgrep and grep return exactly the matching lines", "statement": "The result is exactly the lines of the file that contain the text (or match the pattern), in file order, and with enumerate the number is the line's 1-based position; case_insensitive compares lower-cased line to lower-cased text.", "quantifier": "all file contents and texts", "why_tests_cant": "all contents", "anchors": ["big/file.py:fgrep", "big/file.py:grep"]}
{"id": "C36", "title": "Filesystem helpers guarantee their post-condition", "statement": "If safe_mkdir(path) returns, path is a directory and everything previously below other paths is unchanged; safe_unlink removes path iff it is a file; touch makes path exist without changing content; pushd restores the directory that was current when it was created, for any nesting and any directory changes or exceptions inside.", "quantifier": "all file trees, paths and nestings of with-blocks", "why_tests_cant": "all trees, nestings and exception points", "anchors": ["big/file.py:safe_mkdir", "big/file.py:safe_unlink", "big/file.py:touch", "big/file.py:pushd"]}
{"id": "C37", "title": "multisplit with keep loses nothing", "statement": "For any s, non-empty separators, separate, reverse and maxsplit, with strip false: joining what multisplit yields with keep=True, with ALTERNATING, or flattening AS_PAIRS, recreates s.", "quantifier": "all strings, separator sets and option combinations", "why_tests_cant": "all strings times 2^k options", "anchors": ["big/text.py:multisplit"]}
{"id": "C38", "title": "multisplit splits at exactly the separators, greedily", "statement": "With maxsplit -1 and separate=True, every separator piece is one of the separators and is the longest separator matching at its position, positions are scanned left to right (right to left when reversed), and no position inside a non-separator piece starts a separator; with separate=False separator pieces are maximal runs and inner non-separator pieces are non-empty.", "quantifier": "all strings and separator sets", "why_tests_cant": "overlapping separators", "anchors": ["big/text.py:multisplit", "big/text.py:__separators_to_re"]}
{"id": "C39", "title": "maxsplit bounds the number of splits", "statement": "With maxsplit=n>=0 multisplit splits at most n times; the splits made are the first n that maxsplit=-1 would make (the last n if reverse) and the rest of the string is left intact.", "quantifier": "all strings and n", "why_tests_cant": "all strings and n", "anchors": ["big/text.py:multisplit"]}
{"id": "C40", "title": "reverse mirrors forward", "statement": "multisplit(s, seps, reverse=True, ...) yields the mirror image of splitting the mirrored string with mirrored separators, for every keep mode; with single-character separators and maxsplit=-1, reverse does not change the result when separate is true.", "quantifier": "all strings and separators", "why_tests_cant": "all strings", "anchors": ["big/text.py:multisplit", "big/text.py:_multisplit_reversed"]}
{"id": "C41", "title": "multistrip removes all separators at the sides asked for", "statement": "multistrip(s, seps) returns a substring t of s that starts with no separator if left is true, and ends with none if right is true; with left or right false that side is untouched; what it returns is characterised exactly, as is when it raises.", "quantifier": "all strings and separator sets", "why_tests_cant": "all strings", "anchors": ["big/text.py:multistrip"]}
{"id": "C42", "title": "multipartition returns 2*count+1 pieces that rejoin", "statement": "For every s, separators, count>=0, reverse and separate: the result has exactly 2*count+1 elements which concatenate to s, and odd elements are separators or empty; count<0 raises ValueError.", "quantifier": "all strings and counts", "why_tests_cant": "all strings and counts", "anchors": ["big/text.py:multipartition", "big/text.py:multirpartition"]}
{"id": "C43", "title": "normalize_whitespace collapses runs", "statement": "Every maximal run of separators becomes one replacement, everything else is unchanged; the str fast path gives the same result as the general path; with the default replacement it is idempotent.", "quantifier": "all strings", "why_tests_cant": "fast path vs slow path over all strings", "anchors": ["big/text.py:normalize_whitespace"]}
{"id": "C44", "title": "split_title_case loses nothing and splits only before capitals", "statement": "Joining the yielded words recreates s; no yielded word is empty unless s is empty; each split falls immediately before an upper-case character and, with split_allcaps false, after a lower-case one.", "quantifier": "all strings and both flags", "why_tests_cant": "all strings", "anchors": ["big/text.py:split_title_case"]}
{"id": "C45", "title": "combine_splits cuts at the union of all cuts", "statement": "If each split array is no longer than s in total, the yielded pieces are non-empty, join to s, and their boundaries are exactly the union of the boundaries of all split arrays.", "quantifier": "all strings and all families of split arrays", "why_tests_cant": "any number of arrays; heap order dependent", "anchors": ["big/text.py:combine_splits"]}
{"id": "C46", "title": "gently_title changes only the case of word-initial characters", "statement": "The output is the input with some characters replaced by their upper-case form: a character is upper-cased only if it is first in the string, follows whitespace or '(' , or follows a run of quote characters there, or an apostrophe after a word-initial D or O; all others are untouched.", "quantifier": "all strings", "why_tests_cant": "all strings", "anchors": ["big/text.py:gently_title"]}
{"id": "C47", "title": "split_quoted_strings loses nothing", "statement": "Whenever it does not raise, joining all strings of all tuples yielded recreates s; every tuple but possibly the last with a leading quote has a matching trailing quote; and it raises exactly for the arguments documented.", "quantifier": "all strings, quote sets, escapes and initial states", "why_tests_cant": "all strings", "anchors": ["big/text.py:split_quoted_strings"]}
{"id": "C48", "title": "split_delimiters nests", "statement": "Closers match the most recent unmatched opener (or state); text inside a quoting delimiter yields no delimiters; with delimiters of one character the result is exactly the obvious parser's; it raises exactly for the arguments and texts documented, and always ends.", "quantifier": "all strings and delimiter sets", "why_tests_cant": "all strings; multi-character delimiters", "anchors": ["big/text.py:split_delimiters", "big/text.py:_delimiters_to_state_and_tokens"]}
{"id": "C49", "title": "lines numbers and preserves every line", "statement": "lines(s) yields lines numbered consecutively from line_number, with info.line == line + info.end, and concatenating info.line recreates s; the number of lines is one more than the number of linebreaks.", "quantifier": "all strings and separator sets", "why_tests_cant": "all strings", "anchors": ["big/text.py:lines"]}
{"id": "C50", "title": "Lines modifiers keep leading+line+trailing+end equal to the original line", "statement": "For every chain of lines_strip, lines_rstrip, lines_strip_indent, lines_strip_line_comments, filters and sorts applied to lines(s): each yielded pair satisfies info.leading + line + info.trailing + info.end == info.line.", "quantifier": "every text and every chain of modifiers, of any length", "why_tests_cant": "chains compose without bound", "anchors": ["big/text.py:LineInfo.clip_leading", "big/text.py:LineInfo.clip_trailing", "big/text.py:lines_strip", "big/text.py:lines_rstrip", "big/text.py:lines_strip_indent", "big/text.py:lines_strip_line_comments"]}
{"id": "C51", "title": "lines_strip_indent assigns indent levels like a stack of indents", "statement": "If lines_strip_indent does not raise, a line's indent is the number of enclosing indentation levels; blank lines take the indent of the next non-blank line or 0; dedenting to a level that is not open raises IndentationError.", "quantifier": "every sequence of line indents", "why_tests_cant": "every sequence", "anchors": ["big/text.py:lines_strip_indent"]}
{"id": "C52", "title": "wrap_words keeps the words and fills the lines", "statement": "The words appear unmodified in order, separated only by the spaces and newlines inserted; and a line is broken only where the next word would not fit.", "quantifier": "all word lists and margins", "why_tests_cant": "all lists", "anchors": ["big/text.py:wrap_words"]}
{"id": "C53", "title": "What split_text_with_code returns", "statement": "For all strings: apart from the breaks, the result is exactly the words of the text lines and the code lines, in order, and no character but whitespace is lost, if the last line is not an unfinished line of code (such a line is lost); the breaks are those of the layout if and only if, besides, no code comes after text that comes after code; otherwise the result, or AssertionError, is the one given by an explicit description; whitespace other than tab, space and newline in an indent or before the end of a code line raises an exception.", "quantifier": "all strings and options", "why_tests_cant": "all strings", "anchors": ["big/text.py:split_text_with_code"]}
{"id": "C54", "title": "merge_columns keeps the columns", "statement": "With no overflow, output line k consists of line k of each column padded, joined with the separator (trailing whitespace trimmed), as many lines as the tallest column; under RAISE OverflowError is raised exactly if a line is too wide; what every strategy does with the lines of each column is as documented.", "quantifier": "all columns and widths", "why_tests_cant": "all column contents", "anchors": ["big/text.py:merge_columns"]}
{"id": "C55", "title": "int_to_words names distinct integers differently", "statement": "For all i != j with |i|,|j| < 10**75 and any fixed flowery/ordinal flags, int_to_words(i) != int_to_words(j); outside that range it returns str(i).", "quantifier": "all integers", "why_tests_cant": "10^75 integers", "anchors": ["big/text.py:int_to_words"]}
{"id": "C56", "title": "re_partition splits at matches and loses nothing", "statement": "re_partition(s, pattern, count) returns 2*count+1 elements, alternating texts and matches, and joining texts and matched strings recreates s; it raises ValueError exactly if count is negative or a match is empty; re_rpartition likewise from the right.", "quantifier": "all strings, patterns and counts", "why_tests_cant": "all patterns and strings", "anchors": ["big/text.py:re_partition", "big/text.py:re_rpartition"]}
{"id": "C57", "title": "reversed_re_finditer yields true matches that do not overlap, right to left", "statement": "For every pattern and string, the matches yielded are true matches of the pattern, do not overlap and move leftwards; no match that finditer finds is passed over; it terminates and does not raise.", "quantifier": "all patterns (as abstract matchers) and strings", "why_tests_cant": "all patterns", "anchors": ["big/text.py:reversed_re_finditer"]}
{"id": "C58", "title": "timestamp_3339Z sorts chronologically", "statement": "For UTC instants in years 1000-9999 rendered with the same precision, string order equals time order and distinct instants (at that precision) give distinct strings, from which the instant can be read back, for every type of argument; timestamp_human shows the same instant in local time.", "quantifier": "all instants and argument types", "why_tests_cant": "all instants", "anchors": ["big/time.py:timestamp_3339Z", "big/time.py:timestamp_human"]}
{"id": "C59", "title": "get_int, get_float and try_* never raise on unconvertible input", "statement": "For every object whose int()/float() conversion raises TypeError or ValueError or succeeds, get_int, get_float return the conversion if possible, else the default (or o), and try_x is true exactly when get_x converts.", "quantifier": "all objects, as abstract conversion outcomes", "why_tests_cant": "all objects incl. infinities", "anchors": ["big/builtin.py:get_int_or_float", "big/builtin.py:get_int", "big/builtin.py:try_int"]}
{"id": "C60", "title": "Bound inner classes inherit as the inner classes do", "statement": "If Inner inherits from decorated classes, the MRO of o.Inner is that of Inner with o.X right before each decorated class X in it, so that super() in a method finds the bound class and passes o on; Outer.Inner is the class as written; an UnboundInnerClass gets its arguments unchanged.", "quantifier": "all class hierarchies and access histories", "why_tests_cant": "all access histories", "anchors": ["big/boundinnerclass.py:_Worker.__get__", "big/boundinnerclass.py:BoundInnerClass"]}
{"id": "C61", "title": "encode_strings accepts exactly str, bytes and their collections", "statement": "For every nested structure: encode_strings raises TypeError exactly when some type other than str, bytes, list, tuple, dict and set occurs (subclasses included), an encoding error exactly when some str cannot be encoded, whichever comes first; and what holds no str is returned as it is.", "quantifier": "all nested structures", "why_tests_cant": "unbounded nesting", "anchors": ["big/text.py:encode_strings"]}
{"id": "C62", "title": "Deprecated splitters lose nothing", "statement": "deprecated.split_quoted_strings segments rejoin to s, and parse_delimiters tuples rejoin to s, whenever they do not raise; the segments are exactly the maximal unquoted texts and the whole (or, last, unclosed) quoted strings, and split_quoted_strings raises only if triple_quotes is on and the last character of s opens a quoted string; parse_delimiters accepts exactly the well-nested strings, a mismatch is reported at the first closing delimiter that matches no open one, and the delimiters it says are missing would complete s; lines_strip_comments cuts each line at the first marker outside quoted strings.", "quantifier": "all strings, quote sets, delimiter sets and comment markers", "why_tests_cant": "all strings", "anchors": ["big/deprecated.py:split_quoted_strings", "big/deprecated.py:parse_delimiters", "big/deprecated.py:lines_strip_comments"]}
{"id": "C63", "title": "Lines filters select and keep order", "statement": "lines_containing, lines_grep, lines_filter_empty_lines and lines_filter_line_comment_lines yield exactly the pairs satisfying their predicate, unchanged and in order (invert complements); lines_sort yields a stable sorted permutation.", "quantifier": "all inputs", "why_tests_cant": "all inputs", "anchors": ["big/text.py:lines_containing", "big/text.py:lines_grep", "big/text.py:lines_filter_empty_lines", "big/text.py:lines_filter_line_comment_lines", "big/text.py:lines_sort"]}
{"id": "C64", "title": "multisplit strip modes; PROGRESSIVE splits like str.split", "statement": "With strip true, LEFT or RIGHT, multisplit yields what it would for the multistripped string; multisplit(s, whitespace, strip=PROGRESSIVE, maxsplit=n) yields exactly s.split(None, n), and with reverse s.rsplit(None, n), for every n (one empty string where str.split yields none).", "quantifier": "all strings, n and separator sets", "why_tests_cant": "all strings and n", "anchors": ["big/text.py:multisplit", "big/text.py:multistrip"]}
{"id": "C65", "title": "LineInfo column_number counts the clipped leading text", "statement": "For every line of lines() passed through any chain of line modifiers that keep lines whole: as long as the line is not empty, column_number equals first_column_number plus the columns of the pieces clipped from its start, each with its tabs expanded on its own; without tabs, first_column_number plus the length of leading, also for an empty line. (With tabs, so, it need not be the column where the line starts.)", "quantifier": "all lines, modifier chains, separators", "why_tests_cant": "modifier chains and line contents are unbounded", "anchors": ["big/text.py:LineInfo.clip_leading", "big/text.py:LineInfo.clip_trailing", "big/text.py:lines_strip", "big/text.py:lines_strip_indent"]}
{"id": "C66", "title": "lines_strip_line_comments cuts at the first unquoted marker", "statement": "For every sequence of lines, every set of comment markers, quotes, multiline quotes and escape: each line is cut at the first comment marker that is outside every quoted string (a multiline quote left open on one line stays open on the next) and what is cut off goes to trailing; a line with no unquoted marker is unchanged; SyntaxError is raised when a line ends in an open quote that is not multiline, or the last line leaves a quote open.", "quantifier": "all line sequences, marker and quote sets", "why_tests_cant": "quote state is carried over unboundedly many lines", "anchors": ["big/text.py:lines_strip_line_comments", "big/text.py:split_quoted_strings"]}
{"id": "C67", "title": "lines_strip and lines_rstrip yield the stripped line", "statement": "For every pair, lines_strip yields line.strip() (lines_rstrip: line.rstrip()), or with separators the multistripped line, and leading/trailing record exactly what was removed.", "quantifier": "all lines and separator sets", "why_tests_cant": "all strings", "anchors": ["big/text.py:lines_strip", "big/text.py:lines_rstrip"]}
{"id": "C68", "title": "multisplit duplicates the str splitting methods", "statement": "multisplit(s, (sep,), separate=True, maxsplit=n) yields exactly s.split(sep, n) (reverse: s.rsplit(sep, n)) for every n >= -1; the README's splitlines, partition, rpartition and split(None) built on multisplit agree with those of str on every string; and AS_PAIRS output converts mechanically into the three other keep formats, whatever the other arguments.", "quantifier": "all strings, separators, maxsplit values and option combinations", "why_tests_cant": "the README says 'exactly duplicate'; tests compare a few strings and one-character separators", "anchors": ["big/text.py:multisplit", "README.md:Reimplementing library functions using multisplit"]}
{"id": "C69", "title": "Heap's container methods describe its contents", "statement": "After every history of calls: len(heap) is the number of values held, i.e. how many times popleft succeeds; bool(heap) says whether there is one; `o in heap` says whether remove(o) would succeed; repr shows the length and the first value; h1 == h2 exactly if both hold the same values equally often, however they were built, and then no sequence of calls tells them apart; a copy is == to its original.", "quantifier": "all histories of calls, all values and orders", "why_tests_cant": "histories are unbounded; equality of heaps with different array layouts", "anchors": ["big/heap.py:Heap.__len__", "big/heap.py:Heap.__bool__", "big/heap.py:Heap.__contains__", "big/heap.py:Heap.__eq__", "big/heap.py:Heap.__repr__"]}
{"id": "C70", "title": "Log.print prints every event", "statement": "After every history and with all options: print prints the title if there is one, the headings if asked for, and then one line per event, in order, ending in the event indented by its depth; the row of dashes is as long as the longest event.", "quantifier": "all histories, clocks and options", "why_tests_cant": "histories and times are unbounded", "anchors": ["big/log.py:Log.print"]}
{"id": "C71", "title": "Version's accessors and sys.version_info", "statement": "For every accepted string, major, minor and micro are the numbers as written, 0 when absent, though trailing zeros are stripped; == versions agree in every accessor (None meaning 0 for epoch and serial); Version(sys.version_info) is accepted, has the fields of sys.version_info, and such versions are ordered as sys.version_info is.", "quantifier": "all strings, versions and values of sys.version_info", "why_tests_cant": "all strings and field combinations", "anchors": ["big/version.py:Version.major", "big/version.py:Version.minor", "big/version.py:Version.micro", "big/version.py:Version.__init__", "big/version.py:Version.__lt__"]}
{"id": "C72", "title": "The separator tables list the right characters", "statement": "A one-character string is in str_whitespace iff it is whitespace to Python (str.isspace), in unicode_whitespace iff it has Unicode's White_Space property, in ascii_whitespace iff that and below 128, in bytes_whitespace iff bytes.isspace; likewise for the linebreaks tables and splitlines; apart from these each table has just CR LF, and its _without_crlf variant not even that; the precalculated reversed tables are right for str and bytes; splitting bytes at the bytes tables is what bytes.splitlines, bytes.split and bytes.rsplit do.", "quantifier": "all characters, bytes and strings", "why_tests_cant": "all 1114112 code points and every string", "anchors": ["big/text.py:str_whitespace", "big/text.py:bytes_linebreaks", "big/text.py:_reversed_builtin_separators"]}
{"id": "C73", "title": "In a one-thread program, iterating over a Scheduler yields every event and ends", "statement": "With one thread, next(scheduler) ends as long as sleeping takes time at all (even if sleep returns early): with StopIteration iff bool(scheduler) is False, else with the first event of scheduler.queue, never before its time, and exactly at its time if sleeping is exact; a for loop over the scheduler yields exactly scheduler.queue and ends; non_blocking's next never sleeps; event.cancel() takes just that event off scheduler.queue.", "quantifier": "every history of schedule, cancel and next, every clock, every behaviour of sleep", "why_tests_cant": "all histories and timings", "anchors": ["big/scheduler.py:Scheduler._next", "big/scheduler.py:Scheduler.__bool__", "big/scheduler.py:Event.cancel", "big/scheduler.py:SingleThreadedRegulator"]}
{"id": "C74", "title": "multistrip takes any iterable of separators, and multisplit and multistrip refuse anything else", "statement": "For str and for bytes: a str or bytes stands for its characters, any iterable of strings of the type of s, an iterator too, for its elements, and multistrip does what it does with the tuple of these; for multisplit and multistrip an argument that stands for no separators (an iterator that yields nothing apart) or, for multistrip, has an empty one, gives ValueError, and one of the wrong type, or with any element of the wrong type, TypeError, whatever the other arguments.", "quantifier": "all arguments, strings and options", "why_tests_cant": "all iterables, including those that can be iterated over only once", "anchors": ["big/text.py:multisplit", "big/text.py:multistrip", "big/text.py:_iterate_over_bytes", "big/text.py:_separators_to_re"]}
{"id": "C75", "title": "split_delimiters can continue a text piece by piece with state", "statement": "With delimiters of one character each: if a text is cut in two anywhere and splitting the first piece raises nothing, then splitting the second piece with `state` set to the delimiters left open by the first is accepted, and gives, with the text at the cut joined, exactly the tuples and the exception that splitting the whole text at once gives, also when the first piece itself was split with a `state`.", "quantifier": "all delimiters dicts with single-character delimiters, all texts, all cuts, all initial states", "why_tests_cant": "all cut points and nestings at once", "anchors": ["big/text.py:split_delimiters"]}
{"id": "C76", "title": "split_quoted_strings can continue a text piece by piece with state", "statement": "If a text is cut in two where no quote mark or escape sequence is cut (after a line break, say) and splitting the first piece raises nothing, then splitting the second piece with `state` set to the quote left open is accepted, and gives, with the text at the cut joined, exactly the tuples and the exception that splitting the whole text at once gives.", "quantifier": "all quote marks of any length, escapes, texts, cuts and initial states", "why_tests_cant": "all cut points and all quote marks at once", "anchors": ["big/text.py:split_quoted_strings", "big/text.py:_split_quoted_strings"]}
{"id": "C77", "title": "fgrep and grep read the file as documented", "statement": "With a str (or a str pattern) the file is read as text and the lines reported are its lines, as str, without their line breaks and with their numbers, whichever of LF, CR and CR LF ends them; with bytes the lines are the bytes between LFs, unchanged; an encoding with bytes is refused with ValueError before the file is opened, and nothing else is raised but what opening, decoding and compiling raise; an re.Pattern searches as compiled, whatever flags is.", "quantifier": "all files, encodings, texts, patterns and flags", "why_tests_cant": "all file contents and line ending conventions, mixed too", "anchors": ["big/file.py:fgrep", "big/file.py:grep"]}
{"id": "C78", "title": "What split_delimiters' SyntaxErrors say", "statement": "With delimiters of one character each: SyntaxError is raised exactly if a closing delimiter or escape stands where it may not, a line break stands in a quoted string that may not hold one, or the text ends in an escape. The message names that character and an index which is that of the character less the number of characters (line breaks, delimiters without meaning) skipped before it; for a line break, the quote mark that opened the string, if that is in the text and not in state, else None. So the message is right if and only if nothing was skipped and the quote mark is in the text; without quoting delimiters it always is.", "quantifier": "all delimiters dicts with single-character delimiters, all texts and states", "why_tests_cant": "the index is kept up to date over unboundedly many tokens of every kind", "anchors": ["big/text.py:split_delimiters", "big/text.py:_split_delimiters"]}
{"id": "C79", "title": "Calls of multistrip do not influence one another", "statement": "Whatever calls of multisplit and multistrip came before, and whatever they were given, a call of multistrip does what it would do on its own: the separators used are those the object passed holds at the time of the call, also if it held others when it was passed before; and no call of either changes an object passed to it.", "quantifier": "every history of calls, generators started late, changes to lists of separators, and forgotten cache entries", "why_tests_cant": "the cache outlives every call and its key is the object passed; histories are unbounded", "anchors": ["big/text.py:_separators_to_re", "big/text.py:__separators_to_re", "big/text.py:multisplit", "big/text.py:multistrip"]}
{"id": "C80", "title": "Calls of split_delimiters do not influence one another", "statement": "Whatever calls came before, split_delimiters with a mapping of one's own splits at the delimiters in the mapping as it is at the time of the call, and the order in which the mapping lists them does not matter; with no mapping, or None, at the documented default delimiters of the type of s; a mapping of the other type of string is refused with TypeError.", "quantifier": "every history of calls, of changes to mappings, exported ones included, and of forgotten cache entries; all mappings, texts and states", "why_tests_cant": "tables are remembered between calls for ever; histories are unbounded", "anchors": ["big/text.py:split_delimiters", "big/text.py:_delimiters_to_state_and_tokens", "big/text.py:Delimiter.__eq__", "big/text.py:split_delimiters_default_delimiters"]}
{"id": "C81", "title": "LineInfo.clip_leading and clip_trailing keep the line", "statement": "clip_leading and clip_trailing (the latter with at least one character), called with a string the line starts or ends with or a number of characters it has, return the rest of the line; leading + line + trailing + end stays the original line; what was clipped is added to leading or trailing, or, if nothing is left of the line, all of it is in trailing; other attributes do not change; so after any sequence of calls.", "quantifier": "all lines, all LineInfo objects that describe them, all sequences of calls with any right arguments; all combinations of types of the constructor's arguments", "why_tests_cant": "lines, splits and sequences of calls are unbounded", "anchors": ["big/text.py:LineInfo.__init__", "big/text.py:LineInfo.clip_leading", "big/text.py:LineInfo.clip_trailing"]}
{"id": "C82", "title": "Chains of lines modifiers work on streams", "statement": "Whatever the chain of lines modifiers, what it has yielded once it has read some lines does not depend on the lines that follow, and an exception raised by the source passes through; without lines_sort and lines_strip_indent each line that is read makes the chain yield one line or none, at once, and nothing is left to yield at the end of the source; lines_strip_indent holds back only blank lines, lines_sort everything.", "quantifier": "all chains of modifiers with all arguments, all sources, finite or not, and all points at which the source ends or raises", "why_tests_cant": "chains and sources are unbounded, and a modifier's state carries over from line to line", "anchors": ["big/text.py:lines_rstrip", "big/text.py:lines_strip", "big/text.py:lines_strip_indent", "big/text.py:lines_strip_line_comments", "big/text.py:lines_sort", "big/text.py:lines_grep"]}
{"id": "C83", "title": "lines takes any iterable of lines, or of pairs", "statement": "lines over an iterable of str, or of bytes, or of pairs of a line and its linebreak yields them all, numbered without gaps; after a str only str is accepted, after bytes only bytes; and whatever the iterable yields, and however often a call of next has raised before, every line yielded is str or bytes, its end has the same type, info.line is line + end, and line numbers have no gaps.", "quantifier": "all sequences of values of any types, whatever calls of next raise", "why_tests_cant": "sequences of values and of exceptions in between are unbounded", "anchors": ["big/text.py:lines.__init__", "big/text.py:lines.__next__", "big/text.py:LineInfo.__init__"]}
{"id": "C84", "title": "gently_title and normalize_whitespace take any iterable of strings", "statement": "apostrophes, double_quotes and separators may be a string of the type of s, which stands for its characters, or any iterable of strings of that type, an iterator too; None stands for the documented default; the result is that for the strings listed; normalize_whitespace refuses a value of another type with TypeError, an empty string among them with ValueError; gently_title refuses an object that is no iterable or a string of the other type with TypeError.", "quantifier": "all texts, str or bytes, and all arguments: None, str, bytes, iterables of anything, iterators, other objects", "why_tests_cant": "texts and iterables are unbounded", "anchors": ["big/text.py:gently_title", "big/text.py:normalize_whitespace", "big/text.py:_iterate_over_bytes"]}
{"id": "C85", "title": "Which arguments split_quoted_strings takes", "statement": "quotes and multiline_quotes may be a string of the type of s, which stands for its characters, or any iterable of strings of that type that is not an iterator; escape and state are strings of that type; None stands for the default; the defaults, which are str, stand for the same marks in bytes if s is bytes. Any other call raises an exception before anything is yielded, except that an empty string of the other type is taken for no quotes, and, with multiline quotes, an escape that is false for no escape. An argument of the wrong type raises TypeError, an empty quote mark ValueError. In particular every call with an iterator is refused, although the documentation says iterable.", "quantifier": "all texts, str or bytes, and all arguments: None, str, bytes, tuples, collections and iterators of anything, other objects, true or false", "why_tests_cant": "texts and iterables are unbounded", "anchors": ["big/text.py:split_quoted_strings", "big/text.py:_iterate_over_bytes"]}
{"id": "C86", "title": "Which heap indices agree with the sorted list", "statement": "For every heap h and int i: h[i] equals sorted(h)[i], and raises IndexError exactly when that does, for i >= 0, i <= -10, i == -1 unless h is empty, and i out of range; without ties these, and -2 with three or more values, are all. For -9 <= i <= -2 the code gives the second largest value whatever i is, or the largest if len(h) == -i.", "quantifier": "all heaps, histories, indices", "why_tests_cant": "heaps and indices are unbounded", "anchors": ["big/heap.py:Heap.__getitem__"]}
{"id": "C87", "title": "Incoherence is always reported", "statement": "In every history bool(view), ready() and done() raise RuntimeError whenever the current graph has an edge Y->Z such that Z was yielded or done in that view while Y is not done in it, and the message names all such dependencies.", "quantifier": "all histories of graph and view operations", "why_tests_cant": "histories are unbounded", "anchors": ["big/graph.py:TopologicalSorter.View._add_successor", "big/graph.py:TopologicalSorter.View._remove_node"]}
{"id": "C88", "title": "Which characters gently_title capitalises", "statement": "For every string and every choice of quote marks, exactly the described characters are upper-cased: those that start a word, or follow a run of quote characters there, or an apostrophe after a word-initial D or O. Every word is capitalised, except after a word that consists of quote marks, a single D or O, or D' or O'; those are the only words missed.", "quantifier": "all strings, apostrophes and double quotes", "why_tests_cant": "all strings", "anchors": ["big/text.py:gently_title"]}
{"id": "C89", "title": "Quoted text ends at the first quote mark that is not escaped", "statement": "For every string, quote marks (of any length, overlapping or not), escape and state: read the string from the left from where the text of a tuple yielded by split_quoted_strings starts, and take as one mark the longest quote mark or escape sequence that starts at a position (the escape sequences are the escape followed by a mark of quotes, or by itself; marks of multiline_quotes cannot be escaped). If the text is quoted by q, then q is not read before the end of the text, and is read there or the string ends there; so q occurs in the text only within an escape sequence or within or across other marks. If no other quote mark overlaps q and the escape's first character is in no mark, the text has no unescaped occurrence of q. An unquoted text ends at the first quote mark read, or at the end of the string.", "quantifier": "all strings, quote marks, multiline quote marks, escapes and states", "why_tests_cant": "all strings and overlapping quote sets", "anchors": ["big/text.py:split_quoted_strings"]}
{"id": "C90", "title": "split_delimiters loses no text, and when it repeats none", "statement": "For every string, delimiters of any lengths and initial state: whenever split_delimiters does not raise, the strings of all tuples, joined, are the string read from its start to its end, where it may go back and read some text again, so that no character of the string is lost. It recreates the string exactly, character for character, if all openers, closers and escapes are single characters, or if no token is ever ignored within quotes.", "quantifier": "all strings, delimiters and states", "why_tests_cant": "all strings, overlapping delimiters", "anchors": ["big/text.py:split_delimiters", "big/text.py:_delimiters_to_state_and_tokens"]}
{"id": "C91", "title": "wrap_words respects the margin, but not two_spaces", "statement": "For words without newlines in them and breaks that are only newlines, every output line is at most margin long or consists of a single word. two_spaces makes no difference: after the end of a sentence there are always two spaces.", "quantifier": "all lists of words, margins", "why_tests_cant": "all lists of words", "anchors": ["big/text.py:wrap_words"]}
{"id": "C92", "title": "When merge_columns aligns the columns", "statement": "If no line, without its trailing whitespace, is wider than its column, the output of merge_columns consists of rows of cells, each a line of its column with spaces after it, and every cell is exactly as wide as its column if and only if no line is wider with its trailing whitespace.", "quantifier": "all columns, widths, strategies", "why_tests_cant": "all texts and widths", "anchors": ["big/text.py:merge_columns"]}
{"id": "C93", "title": "When re_partition splits at exactly the matches", "statement": "The texts in the result of re_partition are those between the successive matches that finditer gives for the whole string (for re_rpartition, those of reversed_re_finditer) if and only if each match used is not empty and is the first (last) place where its text is found in the rest of the string; this is so for every pattern without anchors and lookaround that matches no empty string.", "quantifier": "all patterns (as abstract matchers) and strings", "why_tests_cant": "all patterns", "anchors": ["big/text.py:re_partition", "big/text.py:re_rpartition"]}
{"id": "C94", "title": "reversed_re_finditer moves leftwards, strictly but for empty matches", "statement": "For every pattern and string, each match yielded starts strictly left of every one before, unless it is the empty match at the start of an earlier one; no more than two matches yielded start at the same place, and a match is yielded twice only if it is empty. A pattern that matches no empty string never yields two matches with the same start or the same end.", "quantifier": "all patterns (as abstract matchers) and strings", "why_tests_cant": "all patterns incl. those matching the empty string", "anchors": ["big/text.py:reversed_re_finditer"]}
{"id": "C95", "title": "For which types timestamp_3339Z shows microseconds by default", "statement": "Without want_microseconds, microseconds are shown for datetimes and None and left out for ints, struct_times and floats. (For floats the docstring says the opposite.)", "quantifier": "all instants and argument types", "why_tests_cant": "all instants", "anchors": ["big/time.py:timestamp_3339Z", "big/time.py:timestamp_human"]}
{"id": "C96", "title": "What get_int_or_float, get_int and try_int return or raise", "statement": "For every object, whatever its int() and float() do: get_int_or_float returns an int if o converts to one without loss, else a float, else the default (or o), or it raises; and it raises exactly if o is a float that is infinite or NaN, if a conversion that is tried raises anything but TypeError and ValueError, or if o converts to an infinity. If o converts to NaN, the default (or o) is returned. try_int and get_int do not raise if int() raises only TypeError and ValueError.", "quantifier": "all objects, as abstract conversion outcomes", "why_tests_cant": "all objects incl. infinities", "anchors": ["big/builtin.py:get_int_or_float", "big/builtin.py:get_int", "big/builtin.py:try_int"]}
{"id": "C97", "title": "Bound inner classes are bound once per instance", "statement": "In every history (attribute reads, access through super() or __get__, instances destroyed), two instances never share a bound inner class; and if the inner classes of o are decorated with BoundInnerClass, an instance of the class o.name gives is initialized with o (while o is alive, and None after that) before the arguments given. If the decorated classes of o are attributes under their own names and are accessed as attributes of o, o.name is the same class on every access, whatever is done to other instances, and different names give different classes. Otherwise, each access through super() or by another name than the class's own makes a new class, and replaces the one bound under the class's name.", "quantifier": "all class hierarchies and access histories", "why_tests_cant": "all access histories", "anchors": ["big/boundinnerclass.py:_Worker.__get__", "big/boundinnerclass.py:BoundInnerClass"]}
{"id": "C98", "title": "When encode_strings preserves structure", "statement": "For every nested structure of str, bytes, list, tuple, dict and set: when encode_strings returns, the result has the same shape with each str replaced by its encoding and each bytes unchanged, if and only if nowhere two keys of a dict, or two elements of a set, become equal by being encoded; so always for objects without bytes.", "quantifier": "all nested structures", "why_tests_cant": "unbounded nesting", "anchors": ["big/text.py:encode_strings"]}
{"id": "C99", "title": "When the README's str_split is str.split", "statement": "The README's str_split(s, sep, maxsplit) and str_rsplit, built on multisplit, agree with s.split(sep, maxsplit) and s.rsplit(sep, maxsplit) for every s if and only if maxsplit == 0, or maxsplit >= -1 and sep is one character. (The README says: exactly duplicate.)", "quantifier": "all strings, separators and maxsplit values", "why_tests_cant": "the README says 'exactly duplicate'; tests compare a few strings and one-character separators", "anchors": ["big/text.py:multisplit", "README.md:Reimplementing library functions using multisplit"]}
{"id": "C100", "title": "When Log.print prints columns", "statement": "After every history, with a clock that does not go back and seconds_width >= 1: start, elapsed and event stand in the same columns on every line if and only if fractional_width <= 9 and all start times are under 10**seconds_width seconds.", "quantifier": "all histories, clocks and options", "why_tests_cant": "histories and times are unbounded", "anchors": ["big/log.py:Log.print"]}
{"id": "C101", "title": "Which of Version's operators and release levels work", "statement": "<, ==, != and > are those of a total order; <= and >= raise TypeError for all versions; release_level 'a' and 'b', which the README demands, raise ValueError, 'alpha' and 'rc' work.", "quantifier": "all versions", "why_tests_cant": "all pairs of versions", "anchors": ["big/version.py:Version.major", "big/version.py:Version.minor", "big/version.py:Version.micro", "big/version.py:Version.__init__", "big/version.py:Version.__lt__"]}
{"id": "C102", "title": "Which separator arguments multisplit takes", "statement": "For str and for bytes: None stands for the whitespace of the type of s, a str or bytes for its characters, any iterable of strings of the type of s that can be iterated over again for its elements, and multisplit does what it does with the tuple of these. With an iterator, which is used up by the check, multisplit splits after each character instead, whatever the separators are and whatever keep, reverse and strip say (maxsplit limits the number of splits); stripping then removes one newline from the end. multistrip accepts an iterator that yields nothing.", "quantifier": "all strings, str or bytes, all separator arguments and options", "why_tests_cant": "iterables are unbounded", "anchors": ["big/text.py:multisplit", "big/text.py:multistrip", "big/text.py:_iterate_over_bytes", "big/text.py:_separators_to_re"]}
{"id": "C103", "title": "Which separators a call of multisplit uses", "statement": "Whatever calls came before and however the objects passed as separators changed: a call of multisplit strips the string of the separators the object holds at the time of the call, and splits it at those the object holds when the returned generator is started; only for an object that can be hashed, and only without reverse, these may be those it held at some earlier time. So for an object that does not change, the call does what it would do on its own, whenever the generator is started.", "quantifier": "all histories of calls, with mutable and hashable separator objects, and any cache eviction", "why_tests_cant": "histories are unbounded", "anchors": ["big/text.py:_separators_to_re", "big/text.py:__separators_to_re", "big/text.py:multisplit", "big/text.py:multistrip"]}
{"id": "C104", "title": "Which delimiters split_delimiters uses", "statement": "split_delimiters splits at the delimiters in the mapping as it is at the time of the call, whatever was called before, unless the mapping is or equals an exported one: then at the default delimiters of the type of s, also if the program has changed the exported mapping.", "quantifier": "all histories of calls and changes to mappings", "why_tests_cant": "histories are unbounded", "anchors": ["big/text.py:split_delimiters", "big/text.py:_delimiters_to_state_and_tokens", "big/text.py:Delimiter.__eq__", "big/text.py:split_delimiters_default_delimiters"]}
{"id": "C105", "title": "lines over pairs refuses anything but pairs and two-character strings", "statement": "Once the iterable passed to lines has yielded a pair of a line and its linebreak, every value that is not one is refused with an exception, except a str of two characters, which is taken for a pair.", "quantifier": "all iterables of anything", "why_tests_cant": "iterables are unbounded", "anchors": ["big/text.py:lines.__init__", "big/text.py:lines.__next__", "big/text.py:LineInfo.__init__"]}
{"id": "C106", "title": "What gently_title refuses", "statement": "apostrophes and double_quotes that are not None and list no strings of the type of s are refused with TypeError or ValueError, an empty list of them, or an empty string among them, with ValueError (so a false value does not stand for the default, as documented); but an iterator that yields nothing is accepted, and stands for no quote marks. Strings of several characters are accepted and ignored.", "quantifier": "all texts, str or bytes, and all arguments", "why_tests_cant": "iterables are unbounded", "anchors": ["big/text.py:gently_title", "big/text.py:normalize_whitespace", "big/text.py:_iterate_over_bytes"]}
{"id": "C107", "title": "When multistrip removes only separators", "statement": "multistrip(s, seps) = t with s = l + t + r where l and r are concatenations of separators and t neither starts nor ends with one, if newline is a separator, s does not end with a newline or the right side is not stripped; it holds for every s if and only if every separator with a newline after it is made of separators; so for no seps without newlines. It is idempotent if newline is a separator or does not occur in s.", "quantifier": "all strings and separator sets", "why_tests_cant": "all strings", "anchors": ["big/text.py:multistrip"]}
{"id": "C108", "title": "A graph copy is independent of the original and behaves like it", "statement": "After c = g.copy(), no operation on g changes what c returns, and c behaves like g did: every operation g would accept c accepts with the same answer; nodes added to c become available from c.ready(), and c.cycle() reports g's cycles.", "quantifier": "every reachable graph and later operations on either", "why_tests_cant": "aliasing bug needs a particular later operation to show", "anchors": ["big/graph.py:TopologicalSorter.copy"]}
{"id": "C109", "title": "Which dedents lines_strip_indent accepts", "statement": "lines_strip_indent raises, IndentationError, exactly if some line that is not blank starts at a column that is neither the first column, nor at or right of all open levels, nor the level just one out. (So dedenting by two levels to one that is open, but not the first column, is refused.)", "quantifier": "every sequence of line indents", "why_tests_cant": "every sequence", "anchors": ["big/text.py:lines_strip_indent"]}
{"id": "C110", "title": "Which lower-case spellings of a version normalise as PEP 440 says", "statement": "Every string that PEP 440 allows, with labels in lower case, is accepted, and Version(s) is the version PEP 440 says it is if and only if no post or dev label lacks its number (these are then ignored); so two such spellings with the same meaning give equal versions. Labels in capitals raise AssertionError.", "quantifier": "all strings PEP 440 allows", "why_tests_cant": "all combinations of optional parts", "anchors": ["big/version.py:Version.__init__"]}
{"id": "C111", "title": "LineInfo: column numbers, clipping nothing, argument types", "statement": "After any sequence of clips, as long as some of the line is left, column_number has grown by the columns of the pieces clipped from the start, each detabbed on its own; so without tabs it is where the line now starts, whatever the clips. When all is clipped, column_number goes back by the number of characters in leading. Clipping nothing from the end, with '' or 0, clips the whole line. LineInfo accepts exactly the listed types of arguments: not an re.Match as match, as documented, but an re.Pattern.", "quantifier": "all lines, all LineInfo objects that describe them, all sequences of calls; all combinations of types of the constructor's arguments", "why_tests_cant": "lines, splits and sequences of calls are unbounded", "anchors": ["big/text.py:LineInfo.__init__", "big/text.py:LineInfo.clip_leading", "big/text.py:LineInfo.clip_trailing"]}
{"id": "C112", "title": "What a transition that raises does to the StateManager", "statement": "A transition that is not refused either switches, and then next is None when on_enter runs and whatever that does or raises; or it ends before, with the exception that on_exit or an observer raised, and the manager is stuck for ever: the state never changes again, next stays the new state, and no assignment to the state succeeds. If on_exit and observers never raise, no transition is ever in progress between uses of the manager.", "quantifier": "every crash point inside a transition", "why_tests_cant": "every crash point", "anchors": ["big/state.py:StateManager.state"]}
{"id": "C113", "title": "Which observers are called", "statement": "A transition calls the observers that were in the list when observers began being called, or, for each, one that compares equal to it: if an observer was replaced by a different one that compares equal, the old one is called. If no two observers compare equal, exactly those in the list.", "quantifier": "every callback behaviour, every list of observers, every history", "why_tests_cant": "needs two different observers that compare equal", "anchors": ["big/state.py:StateManager"]}
{"id": "C114", "title": "Which threads miss a wake-up", "statement": "If a thread in next(scheduler) has found the earliest event to be in the future, and another thread schedules an event or cancels one: a thread that is asleep re-examines the queue; a thread that has released the lock but is not asleep yet misses the change, and will sleep out its original interval.", "quantifier": "every interleaving of a consumer with producers", "why_tests_cant": "the losing interleaving is a window of a few bytecodes between releasing the lock and event.wait", "anchors": ["big/scheduler.py:ThreadSafeRegulator.wake", "big/scheduler.py:ThreadSafeRegulator.sleep", "big/scheduler.py:Scheduler._next"]}
{"id": "C115", "title": "What a heap holds after an exception", "statement": "When a comparison of items raises (or answers inconsistently), or the iterable given to extend raises, the call raises that exception, no item is ever in the heap twice, and what the heap then holds is: after append and extend, all it held and all it was given (for an iterable that raised, what it had yielded); after remove, all without the item removed, or all if == raised; after popleft and popleft_and_append, all but the first item, which is lost, and the new item; after append_and_popleft, unchanged if the first comparison raised, else the new item and all but the first. Iterators that exist go on. A successful extend, even of nothing, restores the order.", "quantifier": "every heap, every call, every comparison function (stateful, raising at any point, inconsistent), every iterable", "why_tests_cant": "a comparison may raise at any of the O(log n) or O(n) points of a sift, with the list half rearranged", "anchors": ["big/heap.py:Heap.append", "big/heap.py:Heap.extend", "big/heap.py:Heap.remove", "big/heap.py:Heap.popleft", "big/heap.py:Heap.append_and_popleft", "big/heap.py:Heap.popleft_and_append", "big/heap.py:Heap.HeapIterator"]}
{"id": "C116", "title": "Which calls on a heap that raise change it", "statement": "A call of Heap that raises an exception leaves in the heap what was in it if and only if the exception is Heap's own (IndexError, ValueError), was raised by == in remove, by the first comparison of append_and_popleft, or by the iterable given to extend before it yielded anything, or the item that append_and_popleft or popleft_and_append adds is the one it removes; in the first two cases the heap is exactly as before. Every other call that raises, append, popleft, extend and so on, has added or lost items.", "quantifier": "every heap, every call, every exception (of Heap itself, of a comparison, of the iterable given to extend)", "why_tests_cant": "a comparison may raise at any point of a sift, with the list half rearranged", "anchors": ["big/heap.py:Heap.append", "big/heap.py:Heap.extend", "big/heap.py:Heap.remove", "big/heap.py:Heap.popleft"]}
{"id": "C117", "title": "Which struct_times the timestamps take for the instant they stand for", "statement": "For every struct_time with a tm_gmtoff (years 1000 to 9999), timestamp_3339Z returns the timestamp of the instant it stands for (its fields, less its offset from UTC) if and only if its zone is called GMT and its offset is 0, or its zone is not called GMT and mktime returns that instant; then timestamp_human does as well, and microseconds are left out by default.", "quantifier": "every struct_time that has an offset, every value of want_microseconds, every local time zone (the C library's mktime is any function)", "why_tests_cant": "every date, offset, zone name and local time zone", "anchors": ["big/time.py:timestamp_3339Z", "big/time.py:timestamp_human"]}
{"id": "C118", "title": "safe_mkdir, safe_unlink and touch keep their promises among other processes", "statement": "Whatever other processes do to the files in the meantime: when safe_mkdir returns, a directory is at the path at its last system call; at every system call, so wherever the program is killed, safe_mkdir and safe_unlink have removed nothing but a file at the path, and safe_mkdir has made nothing but directories, at the path and its missing ancestors, where nothing was; touch changes nothing but the path, and when it returns the path exists with the current time.", "quantifier": "every file tree, path, schedule of other processes, and crash point", "why_tests_cant": "the check and the system call that relies on it are separate: anything can happen in between", "anchors": ["big/file.py:safe_mkdir", "big/file.py:safe_unlink", "big/file.py:touch"]}
{"id": "C119", "title": "When touch keeps the contents of files, and safe_unlink raises, among other processes", "statement": "Whatever other processes do to the files in the meantime: touch changes the contents of a file exactly if there was nothing at the path when it looked and there was a file with contents when it opened it, which then loses them; safe_unlink raises exactly if a file is there when it looks and none when it unlinks.", "quantifier": "every file tree, path and schedule of other processes", "why_tests_cant": "needs another process between two system calls", "anchors": ["big/file.py:touch", "big/file.py:safe_unlink"]}
{"id": "C120", "title": "When a pushd block returns to the directory where it was entered", "statement": "After `with pushd(path):` the current directory is the one that was current before, whatever happens inside the block, as long as that directory exists. For `with p:`, p a pushd object made elsewhere, exactly if the directory where p was made is the one where the block was entered.", "quantifier": "every program: nestings, directory changes, exceptions, changes of the file tree, objects made anywhere", "why_tests_cant": "every history before and inside the block", "anchors": ["big/file.py:pushd"]}
{"id": "C121", "title": "Version accepts exactly the documented arguments", "statement": "Version(s, **keywords) constructs a version exactly when s is a str that can be parsed or sys.version_info and no keyword is given, or when s is None and every keyword has its documented type and range; every other call raises ValueError (or the AssertionError of C110); repr of a parsed version is Version('...') with str() of it, which reads back as an equal version.", "quantifier": "every Python object for every argument, every string", "why_tests_cant": "arguments of every type, in every combination", "anchors": ["big/version.py:Version.__init__", "big/version.py:Version.__repr__"]}
{"id": "C122", "title": "Delimiter and split_delimiters take the documented arguments, and refuse anything else", "statement": "split_delimiters(s, delimiters, state=state) succeeds exactly when delimiters is None, a default mapping, or a mapping from strings of the type of s to Delimiters with strings of the type of s, and state is a collection of open delimiters valid there; it then behaves as the delimiters say. Every other call raises TypeError or ValueError at once, and no assertion fails. Delimiter refuses exactly a backslash as close delimiter, an escape without quoting or quoting without escape, and multiline=False without quoting. It raises ValueError then, and nothing else. Two Delimiters are equal exactly if all their attributes are, equal ones have the same hash, and a copy equals the original.", "quantifier": "every Python object as delimiter, value, close, escape, state and element of state", "why_tests_cant": "arguments of every type, in every combination", "anchors": ["big/text.py:Delimiter", "big/text.py:split_delimiters", "big/text.py:_delimiters_to_state_and_tokens"]}
{"id": "C123", "title": "lines_strip_line_comments' SyntaxErrors name the line and the quote", "statement": "When a quote is left open, the SyntaxError of lines_strip_line_comments names the quote and the line in which it was opened, and, for quotes that may not span lines, the column of the opening quote; every line before is yielded.", "quantifier": "every text, every line, every set of quotes and multiline quotes, every line and column numbering", "why_tests_cant": "every history of quotes opened and closed before", "anchors": ["big/text.py:lines_strip_line_comments"]}
{"id": "C124", "title": "When the SyntaxErrors for multiline quotes give the right column", "statement": "When a multiline quote is left open at the end of the text, the SyntaxError of lines_strip_line_comments gives the column of the opening quote if and only if that is in the last line, or in the column in which the last line starts.", "quantifier": "every text, every line, every set of quotes and multiline quotes, every line and column numbering", "why_tests_cant": "every history of quotes opened and closed before", "anchors": ["big/text.py:lines_strip_line_comments"]}
{"id": "C125", "title": "safe_mkdir, safe_unlink and touch keep their promises with symbolic links", "statement": "In a file system with symbolic links: safe_unlink never raises, and removes what path names (a link, not the file it leads to) if path leads to a file, else nothing. If safe_mkdir returns, path is a directory or leads to one; it only adds directories and removes at most what path names, and that only if it is a file or leads to one; with the parent there it raises only for a link that leads nowhere. touch returns exactly if path leads somewhere; then path exists with the present modification time, the file's contents are kept, and nothing else changes.", "quantifier": "every file tree with files, directories and links (relative, absolute, chains, circles, dangling), every working directory, every path with names and ..", "why_tests_cant": "every tree of links; a link may go through other links, upwards, or in circles", "anchors": ["big/file.py:safe_mkdir", "big/file.py:safe_unlink", "big/file.py:touch"]}
{"id": "C126", "title": "A Scheduler keeps to the regulator's protocol, and its calls are atomic", "statement": "With a thread-safe Regulator, whatever the interleaving of the threads and whatever exceptions the regulator raises: a Scheduler calls now and wake only while the calling thread holds the lock, sleep only while it does not, never enters the lock twice, and always releases it when a call returns or raises. The calls behave as if each were done at one moment, in the order in which they end: no event is lost, or returned twice, and schedule(o, t) returns an event due t after a moment during the call.", "quantifier": "every number of threads, every program calling schedule, cancel, queue, bool, next and non_blocking, every interleaving of their single steps, every exception raised by the lock, now, wake or sleep", "why_tests_cant": "every interleaving of single steps and every exception point", "anchors": ["big/scheduler.py:Scheduler", "big/scheduler.py:Regulator", "big/scheduler.py:ThreadSafeRegulator"]}
{"id": "C127", "title": "What a schedule or cancel that raises has changed", "statement": "If wake never raises, a call of schedule or cancel that raises has changed nothing: the events scheduled are those that calls of schedule returned, and as many were cancelled as calls of cancel returned. If wake raises, the call has done its work: the event is queued, or cancelled. Whatever is raised, the events schedule returned are scheduled, in that order.", "quantifier": "every interleaving, every exception raised by the regulator", "why_tests_cant": "every exception point", "anchors": ["big/scheduler.py:schedule", "big/scheduler.py:cancel"]}
{"id": "C128", "title": "Which calls on a TopologicalSorter that raise change nothing", "statement": "Whenever a call of a TopologicalSorter or of one of its views raises an exception (a closed or incoherent view, a cycle, a node that is not in the graph or was not handed out, an argument that is not hashable), the graph and all views are as they were before the call, except for add with an unhashable dependency and done with several arguments; for those the exact condition is given.", "quantifier": "every history and every call with any arguments", "why_tests_cant": "histories are unbounded, and the damage shows only in later calls", "anchors": ["big/graph.py:TopologicalSorter.add", "big/graph.py:TopologicalSorter.remove", "big/graph.py:TopologicalSorter.View.done"]}
{"id": "C129", "title": "When PushbackIterator passes on the exceptions of the wrapped iterator", "statement": "For every sequence of push, next(), .next(default) and bool(): every exception other than StopIteration that the wrapped iterator raises comes out of the call that met it, and all values before and after it come out as well, if and only if no exception is met by next(). next() turns it into StopIteration, and all that comes after it is lost.", "quantifier": "every interleaving of operations and every wrapped iterator, whatever it raises and when", "why_tests_cant": "unbounded interleavings", "anchors": ["big/itertools.py:PushbackIterator"]}
{"id": "C130", "title": "Which calls on a Log that raise record nothing", "statement": "Whenever log(), enter(), exit() or reset() raises an exception (from the clock, because of its argument, or because no subsystem is open), the log's events and its open subsystems are as they were, if and only if the call is not log() of an object without a length (which is recorded) nor exit() in which the clock raises (which leaves the subsystem without a record).", "quantifier": "every history, argument and clock", "why_tests_cant": "every exception point of every history", "anchors": ["big/log.py:Log"]}
{"id": "C131", "title": "Which comment markers work", "statement": "lines_filter_line_comment_lines and lines_strip_line_comments take a str, bytes, or non-empty list or tuple of comment markers of the type of the lines, and do with it what they do with the tuple of those markers; every other iterable is refused, although documented. Markers of the wrong type are refused before a line is yielded; with quotes, only lines as they were are yielded before. Two or more markers that are not all of the same type are refused when the function is called; several of the same type, but not that of the lines, only when there is a line.", "quantifier": "every argument, of any type, and every stream of lines", "why_tests_cant": "the space of arguments is unbounded", "anchors": ["big/text.py:lines_filter_line_comment_lines", "big/text.py:lines_strip_line_comments"]}
{"id": "C132", "title": "When multiline_quotes given as a string means its characters", "statement": "lines_strip_line_comments with multiline_quotes=t for a str (or bytes) t does what it does with the tuple of the characters of t, for every stream of lines, if and only if no element of quotes is a substring of t (for arguments that are accepted).", "quantifier": "every stream of lines, markers, quotes, escape and string t", "why_tests_cant": "all strings and all sets of quotes", "anchors": ["big/text.py:lines_strip_line_comments"]}
{"id": "C133", "title": "static_order() may be interleaved with anything", "statement": "static_order() returns a generator, which makes its view at the first next. However its nexts are interleaved with other calls on the graph and its other views: it yields no node twice; at the start of each tuple it gets from its view, and inside one as long as the graph was not edited since, it yields a node only after all the node depends on. At the end of a tuple it raises RuntimeError exactly if its view is incoherent, else ValueError exactly if a node of the tuple was removed, else it ends exactly if every node was given, raises CycleError exactly if one was not and there is a cycle, and otherwise yields a node that is due; only if no node is due, because a node not given yet got a new dependency on one already given, it never comes back. If the graph is not edited, the nodes come in dependency order and, without a cycle, every next yields or ends when all were given.", "quantifier": "every history of calls before and between the nexts, every graph and node type, every iteration order of sets", "why_tests_cant": "the interleavings of nexts and edits are unbounded", "anchors": ["big/graph.py:TopologicalSorter.static_order", "big/graph.py:TopologicalSorter.View"]}
{"id": "C134", "title": "Wrapping wrapped text again gives what wrapping the original gives", "statement": "Let words = split_text_with_code(s). Then the text wrap_words(words, margin), whatever the margin, has the same words, the same paragraphs and the same lines of code as s: splitting it gives exactly the list words again. Hence wrapping a text that has been wrapped already, at the same or another margin, is the same as wrapping the original (with the same margin nothing changes). This holds for every string if allow_code is false. With code it holds if there is code in at most one block and the last line that is not blank is text; if the text ends in code, a newline has to be added to the wrapped text, or its last line of code is lost; with code again after text it does not hold (newlines are inserted).", "quantifier": "every string s, tab width, code_indent, every pair of margins (also negative ones)", "why_tests_cant": "a test wraps a few texts at a few margins; the law is about every text and every margin, and about where each line happens to be broken", "anchors": ["big/text.py:split_text_with_code", "big/text.py:wrap_words", "big/text.py:_column_wrapper_splitter"]}
{"id": "C135", "title": "combine_splits is a union: order, repetition and grouping do not matter", "statement": "If no split array is longer than s, combine_splits(s, *arrays) depends on nothing but the positions inside s at which some array is cut. So the order of the arrays does not matter, nor whether one is given more than once; combine_splits(s, combine_splits(s, *a), *b) is combine_splits(s, *a, *b); combine_splits(s, array) of one array that joins to s is that array without its empty strings; and with no cut inside s the result is s whole (nothing, if s is empty). (With an array longer than s, whether ValueError is raised depends on the other arrays.)", "quantifier": "every string over any character type, every number of arrays, every array, also with empty strings and with arrays shorter than s", "why_tests_cant": "the law is about all pairs of lists of arrays; the implementation uses a heap whose order depends on the arrays", "anchors": ["big/text.py:combine_splits", "big/text.py:_combine_splits"]}
{"id": "C136", "title": "When translating or title-casing again changes nothing", "statement": "translate_filename_to_exfat leaves a name unchanged exactly if it is not empty and exFAT allows it. Applied to its own result it changes nothing exactly if the name had no control character U+0001 to U+001F; whatever the name was, the second translation gives a legal name, and a third changes nothing. gently_title of its own result, with the same quote marks, changes nothing, if upper-casing is as in Python (upper-casing the first character of an upper-cased character changes nothing, and does not make it or unmake it whitespace or a quote mark) and quote marks have no upper-case form; so for all bytes with the default quote marks. With a lower-case letter as a quote mark it can change more the second time.", "quantifier": "every name; every text over any character type, every choice of quote marks", "why_tests_cant": "idempotence is about all inputs, also those that have been through the function already", "anchors": ["big/file.py:translate_filename_to_exfat", "big/text.py:gently_title"]}
{"id": "C137", "title": "lines modifiers applied again, or in another order", "statement": "lines_strip() after lines_strip(), and lines_rstrip() after lines_rstrip(), change nothing: not the lines, and not what their LineInfo says (leading, trailing, column_number). lines_strip() before or after lines_rstrip() is lines_strip() alone. lines_convert_tabs_to_spaces twice is the same as once. Filters (lines_containing, lines_filter_empty_lines, lines_filter_line_comment_lines) may be applied in any order, also with lines_grep among them, and one applied twice is the same as once. lines_sort gives the same before a filter as after it, and twice the same as once. lines_filter_empty_lines before lines_strip makes no difference if it is also applied after it. lines_filter_line_comment_lines gives the same before lines_strip as after, if no marker starts or ends with whitespace. (Other orders do matter: lines_filter_empty_lines, or lines_containing, before and after lines_strip.)", "quantifier": "every stream of (LineInfo, line) pairs, also one that ends with an exception; every needle, set of markers, key order and regular expression search", "why_tests_cant": "the laws are equations between chains of generators for all inputs, also in the fields of LineInfo that most callers never print", "anchors": ["big/text.py:lines_strip", "big/text.py:lines_rstrip", "big/text.py:lines_sort", "big/text.py:lines_containing", "big/text.py:lines_grep", "big/text.py:lines_filter_empty_lines", "big/text.py:lines_filter_line_comment_lines", "big/text.py:lines_convert_tabs_to_spaces", "big/text.py:LineInfo"]}
{"id": "C138", "title": "python3 -m big.graph is a tsort", "statement": "Given a text each line of which is blank or has two words, the program prints every word once, and the first word of each pair before the second, if the pairs have no cycle; if they have one it raises CycleError and prints nothing (also for a pair of a word and itself, which POSIX tsort allows). At the first line with another number of words it exits, naming that line without the whitespace around it, and prints nothing. Every text is one of these.", "quantifier": "every text, every definition of whitespace that includes the newline, every iteration order of sets", "why_tests_cant": "the input is any text; the order printed depends on the iteration order of sets", "anchors": ["big/graph.py:__main__", "big/graph.py:TopologicalSorter.static_order"]}
{"id": "C139", "title": "Chains of lines modifiers yield each line at most once, in order, with what lines_grep stored", "statement": "Whatever the chain of lines modifiers applied to lines(...): without lines_sort the line numbers of what is yielded increase, so that lines come in their original order, each at most once; with lines_sort too no line is yielded twice. What lines_grep stored in an attribute of LineInfo (the match in the line as it was when lines_grep saw it, or None with invert) is still there at the end of the chain, unless a later lines_grep stored to the same attribute; an attribute no lines_grep stores to is not set; without lines_strip_indent, indent is 0.", "quantifier": "every text, iterable of lines or of pairs, every chain of modifiers of any length, every argument, also when the chain ends with an exception", "why_tests_cant": "there are infinitely many chains; an object shared between generators could be changed by any of them", "anchors": ["big/text.py:lines", "big/text.py:lines_grep", "big/text.py:lines_sort", "big/text.py:lines_strip_indent", "big/text.py:lines_strip_line_comments", "big/text.py:LineInfo"]}
{"id": "C140", "title": "Separators are taken literally, whatever characters they contain", "statement": "Separators given to multisplit, multistrip, multipartition and lines_filter_line_comment_lines are plain text. Whatever characters they contain (dots, stars, brackets, pipes, backslashes, parentheses, line ends, any white space), the regular expression that big writes for them is a valid one and is read by Python's re as: these separators, each exactly as it is, the longest first, with 'or' between them; repeated one or more times unless separate is true; in one capturing group if keep is true. multistrip's patterns with ^ and $, and the pattern of comment markers after \\s*, are read as the same with the anchors and the white space around it.", "quantifier": "every list of separators, str or bytes, of any characters and lengths, every combination of separate and keep", "why_tests_cant": "there are infinitely many separators; one character left unescaped shows only with a separator that has it at a harmful place", "anchors": ["big/text.py:_re_quote", "big/text.py:__separators_to_re", "big/text.py:_separators_to_re", "big/text.py:multistrip", "big/text.py:multisplit", "big/text.py:lines_filter_line_comment_lines"]}
{"id": "C141", "title": "parse_timestamp_3339Z reads what timestamp_3339Z writes", "statement": "For every t from the year 1000 on: parse_timestamp_3339Z(timestamp_3339Z(t)) is the instant t stands for, up to the precision of the timestamp, in UTC, whatever the timezone argument; its timestamp is the same string again. A string without a time zone gets the timezone argument (None: stays naive), one with a time zone keeps it. datetime_set_timezone changes nothing but the time zone (fold is kept); datetime_ensure_timezone changes nothing if there is a time zone, else sets it, and doing so again changes nothing.", "quantifier": "every argument of timestamp_3339Z (int, float, struct_time, datetime in any zone, None), with microseconds or without, every time zone, every string", "why_tests_cant": "there are infinitely many instants; a field swapped or lost shows for few of them", "anchors": ["big/time.py:parse_timestamp_3339Z", "big/time.py:timestamp_3339Z", "big/time.py:datetime_set_timezone", "big/time.py:datetime_ensure_timezone"]}
{"id": "C142", "title": "lines splits a text where splitlines does", "statement": "For every str or bytes s: the lines that lines(s) yields are s.splitlines(), and their info.line are s.splitlines(True), each with one empty line more at the end exactly if s is empty or ends with a line break; numbered without gaps from line_number. lines_filter_empty_lines(lines(s)) yields exactly the lines of s.splitlines() that are not empty. (So bytes are not split at form feeds and the other characters at which str is.)", "quantifier": "every str and bytes object, every line_number", "why_tests_cant": "there are infinitely many strings, with ten line breaks and CR LF in every combination", "anchors": ["big/text.py:lines", "big/text.py:linebreaks", "big/text.py:bytes_linebreaks", "big/text.py:lines_filter_empty_lines"]}
{"id": "C143", "title": "Partitioning by an escaped pattern is partitioning by separators", "statement": "For separators that are not empty, and the pattern made of them (each escaped, the longest first, with | between; repeated for separate=False): re_partition(s, pattern, count) returns the strings that multipartition(s, separators, count, separate=...) returns, with a match object for each separator found and None for each empty string that stands for a missing one; with a single separator re_rpartition(s, pattern, count) returns what multirpartition(s, [separator], count) returns, and reversed_re_finditer finds what finditer finds in the reversed string. (With several separators the two may differ from the right.)", "quantifier": "every s, every list of non-empty separators, every count >= 0, separate true or false", "why_tests_cant": "separators may overlap with themselves and each other in any way; two different algorithms, one of them on the reversed string, must agree", "anchors": ["big/text.py:re_partition", "big/text.py:re_rpartition", "big/text.py:reversed_re_finditer", "big/text.py:multipartition", "big/text.py:multirpartition"]}
{"id": "C144", "title": "When the string functions return str or bytes rather than an instance of a subclass", "statement": "Given an instance s of a subclass of str or bytes, the string functions return strings with the text they return for a str or bytes with the text of s, and these are str or bytes proper, not instances of a subclass, with these exceptions exactly: multistrip returns s itself when it removes nothing; multisplit yields s itself when it neither strips nor splits (maxsplit 0, or s empty and to be stripped); multipartition returns s itself when count is 0; re_partition and re_rpartition return s itself when nothing matches or count is 0; normalize_whitespace returns the object replacement itself when s is all whitespace and separators is one of big's own str whitespace tuples. (The documentation says that they only ever return str or bytes objects, multistrip 'even if left and right are both false'.)", "quantifier": "every s of any subclass that overrides no methods, all separators, replacements, patterns and options", "why_tests_cant": "which operation makes a new string depends on what is found where in every possible text", "anchors": ["big/text.py:multistrip", "big/text.py:multisplit", "big/text.py:multipartition", "big/text.py:re_partition", "big/text.py:re_rpartition", "big/text.py:normalize_whitespace"]}
{"id": "C145", "title": "lines, and instances of subclasses of str and bytes", "statement": "lines over an instance of a subclass of str or bytes yields what it yields for the str or bytes with its text, and every line and every string in a LineInfo is a str or bytes proper. Over an iterable of lines, it yields each line that is a str (or bytes) proper, numbered without gaps, and refuses each instance of a subclass with a TypeError. Over an iterable of pairs it refuses, with a TypeError, exactly the pairs whose line is an instance of a subclass and whose linebreak is an empty string that is not an instance of that class; the lines that it yields are the objects in the pairs, numbered without gaps. After a line it refuses every pair, with a TypeError; after a pair it takes a str of two characters for a pair, and refuses any other string, with a ValueError or, for bytes of length two, a TypeError.", "quantifier": "all strings, all iterables of lines or of pairs, of any subclasses", "why_tests_cant": "iterables are unbounded, and which are accepted depends on classes and emptiness together", "anchors": ["big/text.py:lines.__init__", "big/text.py:lines.__next__", "big/text.py:LineInfo.__init__"]}
{"id": "C146", "title": "Bound inner classes accessed by several threads", "statement": "If threads access the bound inner classes of o, as attributes of o or through super() or __get__, in any interleaving: the classes two accesses to o.name give are equivalent (of the same name, with the same __init__, and with bases that are equivalent one by one, starting with the class as written), and an instance of each is initialized with o before the arguments given; only one stays cached: once o.name has been accessed and no access to o is under way, all later accesses to attributes in all threads give one class (so accessing it before a second thread knows o has all threads share it); an access that is not disturbed does what it does in a program with one thread. But not all is well with equivalent classes: after a race on a base, accessing a subclass may raise TypeError for good, for lack of a consistent method resolution order.", "quantifier": "every number of threads, every interleaving of the steps of their accesses, every hierarchy of decorated classes, every instance", "why_tests_cant": "the classes depend on the schedule, and a test sees a few schedules, mostly without a race", "anchors": ["big/boundinnerclass.py:_Worker.__get__", "big/boundinnerclass.py:BoundInnerClass", "big/boundinnerclass.py:UnboundInnerClass"]}
{"id": "C147", "title": "How wide merge_columns makes a column", "statement": "merge_columns makes every column exactly max_width characters wide when no line of it is wider than that; min_width makes no difference. So columns have the widths the README gives (min_width if the longest line is shorter than that, else the length of the longest line if that is at most max_width) if and only if in each column the longest line has max_width characters or min_width is max_width.", "quantifier": "all lists of columns, all texts, all widths, separators and overflow strategies", "why_tests_cant": "tests try a few widths, and mostly with columns whose widths agree", "anchors": ["big/text.py:merge_columns"]}
{"id": "C148", "title": "The keyword arguments of lines", "statement": "Keyword arguments given to lines(...), other than its parameters, are attributes of the lines object (so of info.lines) and stay so however many lines have been taken. Unless they are called i, is_pairs or s_is_bytes they make no difference to what is yielded and raised; line_number always counts the lines yielded, and s, separators, column_number and tab_width stay what was passed. One called detab is called in place of the method. The three other names are not safe: an iterator called i replaces s, anything else called i makes every call of next raise TypeError; a true is_pairs makes two-character strings of an iterable be taken apart into a line and a linebreak, a false one other than None makes every line of a str or bytes object raise TypeError; s_is_bytes of the wrong truth value does so for an iterable of strings.", "quantifier": "every str, bytes or iterable, every set of keyword arguments with any values, every number of calls of next", "why_tests_cant": "the names and values of keyword arguments are unbounded, and tests pass only harmless ones", "anchors": ["big/text.py:lines", "big/text.py:lines.__init__", "big/text.py:lines.__next__", "big/text.py:lines.detab"]}
{"id": "C149", "title": "Splitting encoded text by encoded separators", "statement": "multisplit, multistrip, multipartition, multirpartition and normalize_whitespace may be used on text encoded in UTF-8, with separators encoded by encode_strings(separators, encoding='utf-8'): whatever the options they yield what they yield for the str text and str separators, encoded. The same goes for every encoding whose encoded texts occur in each other only where the texts do, so for every encoding of one byte per character; it does not for UTF-16, where a separator may be found in the middle of characters.", "quantifier": "every str without surrogates (every text of every encoding with the property), every set of separators not empty strings, every value of keep, maxsplit, reverse, separate, strip and count", "why_tests_cant": "every text and every set of separators of every length, with characters of one to four bytes in any mixture; tests try a few", "anchors": ["big/text.py:multisplit", "big/text.py:multistrip", "big/text.py:multipartition", "big/text.py:normalize_whitespace", "README.md:5318-5366"]}
{"id": "C150", "title": "split_quoted_strings on encoded text", "statement": "split_quoted_strings of a text encoded in UTF-8, with quotes, multiline_quotes, escape and state encoded too, yields what it yields for the str, encoded, and ends in the same way: if the only line breaks in the text are \\n and \\r, or all quotes are multiline quotes, or the str call raises nothing. Otherwise the str call may raise SyntaxError where the bytes call does not, as str has more line breaks than bytes.", "quantifier": "every str without surrogates, all quotes, multiline quotes, escapes and states", "why_tests_cant": "every text of every length with characters of one to four bytes; tests use ASCII texts", "anchors": ["big/text.py:split_quoted_strings", "big/text.py:_split_quoted_strings"]}
{"id": "C151", "title": "split_title_case again, in two steps, or part by part", "statement": "Splitting a word that split_title_case yielded, with the same split_allcaps, yields that word alone. Splitting each of the words found with split_allcaps=False again with split_allcaps=True, yields the words found with split_allcaps=True. And the text may be cut wherever a word starts, and its parts split separately.", "quantifier": "every str and bytes object, whatever characters are upper- or lower-case", "why_tests_cant": "the claims relate calls on different texts, and hold for every text", "anchors": ["big/text.py:split_title_case"]}
{"id": "C152", "title": "split_title_case, gently_title and combine_splits on encoded text", "statement": "On text encoded in UTF-8 (and with the other arguments encoded too) these functions yield what they yield for the str, encoded. split_title_case: if ASCII letters are the only lower- and upper-case characters of the text. gently_title: if each character of the text that is not ASCII is neither whitespace, nor an apostrophe or double quote (by default, or as listed), nor changed by str.upper, and the text has no character from 1C to 1F. combine_splits: always, in any encoding, for split arrays of the text.", "quantifier": "every str without surrogates that meets the condition, all apostrophes, double_quotes and split arrays", "why_tests_cant": "every text of every length with characters of one to four bytes; tests of bytes use ASCII texts", "anchors": ["big/text.py:split_title_case", "big/text.py:gently_title", "big/text.py:combine_splits"]}
{"id": "C153", "title": "How int_to_words words a number", "statement": "int_to_words of a number from 100 on (and below 10**75) is: the words for how many of the largest quantity in it there are (hundred, thousand, million, ...), the word for that quantity, and unless nothing remains the words for what remains, after \" and \" if it is below a hundred and \", \" otherwise, or a space if not flowery. With ordinal, what remains is worded as an ordinal, or \"th\" is added if nothing remains. Below 100 it is a word of the tables, or two with a hyphen. A negative number is its absolute value after \"negative \". So flowery or not, the words are the same apart from \"and\".", "quantifier": "every integer with an absolute value below 10**75, flowery or not, ordinal or not", "why_tests_cant": "too many integers to try, and their words are made by recursion", "anchors": ["big/text.py:int_to_words"]}
{"id": "C154", "title": "The lines of text encoded in UTF-8", "statement": "For a str whose only line breaks are \\n and \\r, and whose only whitespace is ASCII whitespace other than the separators 1C to 1F: lines of the text encoded in UTF-8 (with default separators, or with given ones, encoded too), through any chain of lines modifiers with their arguments encoded, yields what it yields for the text, encoded, with the same line numbers, column numbers and indents, and raises what it raises. The modifiers are lines_rstrip (with separators or not), lines_strip (without separators, or with ASCII ones), lines_filter_line_comment_lines, lines_containing, lines_grep (if the pattern finds the same in encoded text), lines_sort (if the keys compare the same), lines_strip_line_comments, lines_strip_indent and lines_filter_empty_lines. If the text is ASCII, also lines_convert_tabs_to_spaces. Not so for other texts, nor in general for lines_convert_tabs_to_spaces, or lines_strip with other separators, which count bytes.", "quantifier": "every such text, all separators, every chain of these modifiers with all arguments, all column numbers, tab widths and line numbers", "why_tests_cant": "texts and chains are unbounded, and the functions compute positions in bytes or characters; a byte of one character could be taken for part of another", "anchors": ["big/text.py:lines", "big/text.py:LineInfo", "big/text.py:lines_rstrip", "big/text.py:lines_strip", "big/text.py:lines_filter_line_comment_lines", "big/text.py:lines_containing", "big/text.py:lines_grep", "big/text.py:lines_sort", "big/text.py:lines_strip_line_comments", "big/text.py:lines_strip_indent", "big/text.py:lines_filter_empty_lines"]}
{"id": "C155", "title": "split_delimiters on text encoded in UTF-8", "statement": "If all delimiters and escapes are single ASCII characters (as the default ones are), and the only line breaks of the text are \\n and \\r (or all delimiters are multiline): split_delimiters of the text encoded in UTF-8, with the delimiters and the state encoded, yields what it yields for the text, encoded, and raises what it raises. Not so for other line breaks between quote marks, nor for delimiters that are not ASCII: an escaped delimiter of several bytes can then close.", "quantifier": "every such text, all single ASCII character delimiters, quoting or not, multiline or not, with all escapes, every state", "why_tests_cant": "texts and nestings are unbounded, and a byte of one character could be taken for a delimiter, or an escape could protect only a part of a character", "anchors": ["big/text.py:split_delimiters", "big/text.py:Delimiter"]}
{"id": "C156", "title": "Searching a file of UTF-8 as text and as bytes", "statement": "For a file of UTF-8 without \\r: fgrep for encoded text returns the lines that fgrep for the text (with encoding='utf-8') returns, encoded, with the same numbers; so does grep, if the pattern of bytes finds something in an encoded line exactly if the pattern finds something in the line; and so does fgrep with case_insensitive, if the file and the text are ASCII. In a file whose lines end in \\r\\n, fgrep for encoded text without \\r finds the same line numbers, and its lines have a \\r at the end, but for the file's last line. Not so for a lone \\r, which is a line break in text only, nor for case_insensitive and letters that are not ASCII.", "quantifier": "all such files, texts and patterns, with and without enumerate", "why_tests_cant": "files are unbounded, a byte of one character could be taken for a line break or a part of the text, and text mode translates line breaks where binary mode does not", "anchors": ["big/file.py:fgrep", "big/file.py:grep"]}
