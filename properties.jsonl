{"id": "C01", "title": "Base64 round trip", "statement": "Decoding the text produced by EncodeToBase64 gives back exactly the input bytes, for every legal line size and newline mode, and no matter how the input stream hands out its bytes (chunk sizes) to the encoder or the text to the decoder.", "quantifier": "every byte string, every maxLineSize accepted by EncodeToBase64 (multiple of 4, at most 128), every newline mode, every way of splitting the input/text into read chunks", "why_tests_cant": "the input space and the space of chunkings are unbounded; the encoder carries state (partial group, column) across chunk boundaries", "anchors": ["include/cybozu/base64.hpp:EncodeToBase64", "include/cybozu/base64.hpp:Base64Decoder", "include/cybozu/base64.hpp:DecodeFromBase64"]}
{"id": "C02", "title": "Base64 output is RFC 4648 text with bounded lines", "statement": "EncodeToBase64 without newline mode writes exactly the RFC 4648 encoding (4 characters per 3 bytes, '=' padding); with a line size L > 0 it writes the same characters, with the newline sequence inserted after every L characters (and after the last partial line), so no line is longer than L.", "quantifier": "every byte string, every legal maxLineSize and mode, every chunking of the input", "why_tests_cant": "requires agreement with an independent definition on all inputs and all column offsets at which a chunk can end", "anchors": ["include/cybozu/base64.hpp:EncodeToBase64"]}
{"id": "C03", "title": "Base64 decoder ignores foreign characters", "statement": "The decoder's output depends only on the subsequence of alphabet characters: inserting any characters outside A-Za-z0-9+/ (blanks, newlines, '=') anywhere in the text does not change the decoded bytes, and feeding the text in several write calls equals feeding it at once.", "quantifier": "every text, every insertion of foreign characters, every split into write calls", "why_tests_cant": "all positions and all byte values; decoder state spans calls", "anchors": ["include/cybozu/base64.hpp:Base64Decoder"]}
{"id": "C04", "title": "Integer to text is exact", "statement": "uintToDec/Hex/Bin and intToDec write the canonical positional representation of the value: reading the digits in that base gives the value, there is no leading zero except for 0 itself, negative values get one '-', and nothing is written outside the caller's buffer; the call reports failure exactly when the buffer is too small.", "quantifier": "every 64-bit unsigned and signed value including the minimum, every buffer size", "why_tests_cant": "2^64 values times buffer sizes; the minimum value takes a special path", "anchors": ["include/cybozu/itoa.hpp:uintToDec", "include/cybozu/itoa.hpp:uintToHex", "include/cybozu/itoa.hpp:uintToBin", "include/cybozu/itoa.hpp:intToDec"]}
{"id": "C05", "title": "atoi accepts exactly the in-range decimal numerals", "statement": "atoi on a signed or unsigned type succeeds if and only if the text (up to its end or first NUL) is an optional '-' (signed only) followed by at least one decimal digit and nothing else, and the value fits the type; the returned number is then that value.", "quantifier": "every byte string and every supported integer type (8..64 bit, signed and unsigned)", "why_tests_cant": "overflow boundaries and trailing characters interact; all strings are relevant", "anchors": ["include/cybozu/atoi.hpp:convertToInt", "include/cybozu/atoi.hpp:convertToUint"]}
{"id": "C06", "title": "atoi inverts itoa", "statement": "Converting any integer to decimal text and parsing that text back with the same type succeeds and returns the same integer.", "quantifier": "every value of every supported integer type", "why_tests_cant": "2^64 values; two independently written special cases for the minimum value must agree", "anchors": ["include/cybozu/itoa.hpp:itoa", "include/cybozu/atoi.hpp:atoi"]}
{"id": "C07", "title": "hextoi accepts exactly the in-range hexadecimal numerals", "statement": "hextoi succeeds iff the text up to its end or first NUL consists of at least one hexadecimal digit (either case) and the value fits the type; the returned number is then that value, and itohex output is parsed back to the same number.", "quantifier": "every byte string, every unsigned type width", "why_tests_cant": "overflow detection is incremental and must be right for every prefix", "anchors": ["include/cybozu/atoi.hpp:convertHexToInt", "include/cybozu/itoa.hpp:itohex"]}
{"id": "C08", "title": "Bit scan and population count", "statement": "bsf returns the index of the lowest set bit, bsr the index of the highest set bit, popcnt the number of set bits, and makeBitMask64(n) the word with exactly the low n bits set; the portable fallbacks that split a 64-bit word in two halves agree with these.", "quantifier": "every non-zero 32/64-bit word (popcnt: every word), every n for which the mask is defined", "why_tests_cant": "2^64 words", "anchors": ["include/cybozu/bit_operation.hpp:bsf", "include/cybozu/bit_operation.hpp:bsr", "include/cybozu/bit_operation.hpp:popcnt", "include/cybozu/bit_operation.hpp:makeBitMask64"]}
{"id": "C09", "title": "Endian load/store", "statement": "GetNNbitAsLE/BE and SetNNbitAsLE/BE write and read the documented byte order; get after set returns the value; the byte-wise implementation and the load-and-swap implementation agree.", "quantifier": "every 16/32/64-bit value, every byte buffer", "why_tests_cant": "2^64 values and two code paths selected per platform", "anchors": ["include/cybozu/endian.hpp:Get16bitAsLE", "include/cybozu/endian.hpp:Get32bitAsLE", "include/cybozu/endian.hpp:Get64bitAsLE", "include/cybozu/endian.hpp:Set32bitAsBE", "include/cybozu/endian.hpp:byteSwap"]}
{"id": "C10", "title": "BitVector behaves like a sequence of bits", "statement": "After any sequence of resize, set, reset, append and extract calls, a BitVector has the size and the bits that the same calls on a plain list of booleans would give (append concatenates, extract takes a contiguous range).", "quantifier": "every operation history, every position/length, every word alignment", "why_tests_cant": "alignment (pos mod 64, length mod 64) times unbounded histories; stale bits above the size may leak through word-wide OR", "anchors": ["include/cybozu/bitvector.hpp:BitVectorT"]}
{"id": "C11", "title": "BitVector equality", "statement": "Two BitVectors compare equal with == exactly when they have the same length and the same bits.", "quantifier": "every pair of BitVectors reachable through the public operations", "why_tests_cant": "depends on the invariant that unused bits of the last word are zero after every history", "anchors": ["include/cybozu/bitvector.hpp:BitVectorT::operator=="]}
{"id": "C12", "title": "Succinct vector rank", "statement": "rank1(pos) / rank0(pos) / rank(b, pos) return the number of one / zero / b bits in positions [0, pos) of the stored bit string, and get(pos) returns the stored bit, for every pos up to the size.", "quantifier": "every bit string, every position up to and including the size", "why_tests_cant": "unbounded lengths and positions; block boundaries at 64 and 256 bits and at packed counter fields", "anchors": ["include/cybozu/sucvector.hpp:SucVectorT::rank1", "include/cybozu/sucvector.hpp:SucVectorT::rank0", "include/cybozu/sucvector.hpp:SucVectorT::get"]}
{"id": "C13", "title": "Succinct vector select", "statement": "select(b, r) returns the position of the r-th (0-based) bit equal to b, and NotFound if there are not more than r such bits.", "quantifier": "every bit string, both bit values, every rank", "why_tests_cant": "binary search over sampled tables; boundary blocks; unbounded sizes", "anchors": ["include/cybozu/sucvector.hpp:SucVectorT::select", "include/cybozu/sucvector.hpp:SucVectorT::select1", "include/cybozu/sucvector.hpp:SucVectorT::select0", "include/cybozu/select8.hpp"]}
{"id": "C14", "title": "Wavelet matrix access and rank", "statement": "For a sequence of values smaller than 2^valBitLen, get(pos) returns the stored value, rank(val, pos) the number of occurrences of val before pos, and rankLt(val, pos) the number of values smaller than val before pos.", "quantifier": "every sequence, every bit length, every value and position", "why_tests_cant": "correctness is by induction over bit levels; sequences unbounded", "anchors": ["include/cybozu/wavelet_matrix.hpp:WaveletMatrixT::init", "include/cybozu/wavelet_matrix.hpp:WaveletMatrixT::get", "include/cybozu/wavelet_matrix.hpp:WaveletMatrixT::rank", "include/cybozu/wavelet_matrix.hpp:WaveletMatrixT::rankLt"]}
{"id": "C15", "title": "Wavelet matrix select", "statement": "select(val, r) returns the position of the r-th (0-based) occurrence of val, and NotFound if there are not more than r occurrences.", "quantifier": "every sequence, every value below the bound and every rank", "why_tests_cant": "as above plus a sampled table and a binary search over rank", "anchors": ["include/cybozu/wavelet_matrix.hpp:WaveletMatrixT::select", "include/cybozu/wavelet_matrix.hpp:WaveletMatrixT::initSelTbl"]}
{"id": "C16", "title": "FM-index counts pattern occurrences", "statement": "getRange on a query returns a non-empty range exactly when the query occurs in the indexed text, and the width of the range is the number of occurrences (overlapping included).", "quantifier": "every text over the alphabet, every query", "why_tests_cant": "backward search is correct only through the global structure of the sorted suffixes; all texts and patterns", "anchors": ["include/cybozu/fmindex.hpp:FMindexT::init", "include/cybozu/fmindex.hpp:FMindexT::getRange"]}
{"id": "C17", "title": "FM-index locates occurrences", "statement": "convertPosition maps every row of the range returned for a query to a text position at which the query occurs, different rows to different positions, covering all occurrences; getPrevString recovers the characters preceding a row's text position.", "quantifier": "every text, query, row and sampling distance skip > 0", "why_tests_cant": "walks the last-to-first mapping an unbounded number of steps to the next sampled row", "anchors": ["include/cybozu/fmindex.hpp:FMindexT::convertPosition", "include/cybozu/fmindex.hpp:FMindexT::getPrevString"]}
{"id": "C18", "title": "Compressed succinct vector", "statement": "After init with any bit string, get(pos) returns the stored bit and rank1(pos) the number of ones before pos, whatever dictionary the compressor chose.", "quantifier": "every bit string and position; every dictionary the construction can produce", "why_tests_cant": "dictionary construction is data dependent; unbounded inputs", "anchors": ["include/cybozu/csucvector.hpp:CSucVector::init", "include/cybozu/csucvector.hpp:CSucVector::get", "include/cybozu/csucvector.hpp:CSucVector::rank1"]}
{"id": "C19", "title": "Variable-length integers round trip", "statement": "Saving any int/unsigned/int64/uint64/size_t with the serializer's variable-length format and loading it as the same type returns the value and consumes exactly the bytes written, so values can be concatenated; the encoding is at most 1 + sizeof(T) bytes.", "quantifier": "every value of every supported type, every following stream content", "why_tests_cant": "2^64 values; header bytes 0x80..0x87 collide with small negative numbers and need escaping", "anchors": ["include/cybozu/serializer.hpp:saveVariableInt", "include/cybozu/serializer.hpp:loadVariableInt"]}
{"id": "C20", "title": "Serialized containers round trip", "statement": "Loading what save wrote gives back an equal string / vector / list / set / map (nested arbitrarily) and consumes exactly the bytes written, even if the destination object already held data.", "quantifier": "every value of every nested container type, every prior content of the destination", "why_tests_cant": "unbounded structure; prior destination state", "anchors": ["include/cybozu/serializer.hpp:save", "include/cybozu/serializer.hpp:load", "include/cybozu/serializer.hpp:savePodVec", "include/cybozu/serializer.hpp:loadPodVec"]}
{"id": "C21", "title": "Truncated serialized data is never accepted", "statement": "Loading a value from a strict prefix of its serialized bytes always throws; it never returns a wrong value.", "quantifier": "every value and every truncation point", "why_tests_cant": "every crash point of a writer", "anchors": ["include/cybozu/serializer.hpp:load", "include/cybozu/stream.hpp:read"]}
{"id": "C22", "title": "Stream read collects exactly the requested bytes", "statement": "cybozu::read(buf, size, is) returns the next size bytes of the stream however the stream fragments them, and throws exactly when fewer remain; MemoryOutputStream::write never writes beyond its buffer.", "quantifier": "every stream content, every fragmentation into readSome results, every size, every history of writes", "why_tests_cant": "short reads are schedule dependent", "anchors": ["include/cybozu/stream.hpp:read", "include/cybozu/stream.hpp:MemoryInputStream", "include/cybozu/stream.hpp:MemoryOutputStream"]}
{"id": "C23", "title": "Line stream is independent of read fragmentation", "statement": "LineStream::next yields exactly the lines of the underlying byte stream (split at LF, one CR before LF removed) regardless of how the stream fragments its data, for all streams whose lines are within the limit.", "quantifier": "every byte stream, every fragmentation, every line limit of at least 2", "why_tests_cant": "fragment boundaries may fall anywhere, including between CR and LF", "anchors": ["include/cybozu/line_stream.hpp:LineStreamT::next"]}
{"id": "C24", "title": "CSV round trip", "statement": "Reading with CsvReader what CsvWriter wrote gives back the same rows and fields.", "quantifier": "every list of rows of fields (fields without CR and without byte 0xFF, total size below the reader limit), every fragmentation of the input", "why_tests_cant": "quotes, separators and newlines inside fields interact with the state machine", "anchors": ["include/cybozu/csv.hpp:CsvReaderT::read", "include/cybozu/csv.hpp:CsvWriterT::write"]}
{"id": "C25", "title": "Configuration round trip", "statement": "Loading the text produced by Config::toString gives a configuration with the same sections, keys and values.", "quantifier": "every configuration built through the public API whose values contain no newline and do not end in CR", "why_tests_cant": "all key/value contents (including '=', ';', '[' in values)", "anchors": ["include/cybozu/config.hpp:Config::load", "include/cybozu/config.hpp:Config::toString", "include/cybozu/config.hpp:Config::Section::append"]}
{"id": "C26", "title": "Configuration loader obeys the documented grammar", "statement": "Config::load accepts a text iff every line is empty, a comment, a [NAME] section header or NAME SP* '=' VALUE with no key repeated in its section, and the loaded value of a key is exactly the text after '='.", "quantifier": "every text", "why_tests_cant": "infinitely many malformed lines", "anchors": ["include/cybozu/config.hpp:Config::load", "include/cybozu/config.hpp:config_local::split"]}
{"id": "C27", "title": "XML escaping round trip", "statement": "unescape(escape(s)) = s for every string, the escaped text contains none of < > ' \" and every & starts one of the five entities; unescape throws exactly on texts containing an & that does not start one of them.", "quantifier": "every byte string", "why_tests_cant": "nested and adjacent escapes", "anchors": ["include/cybozu/minixml.hpp:escape", "include/cybozu/minixml.hpp:unescape"]}
{"id": "C28", "title": "XML print then parse", "statement": "Parsing the text printed for a document tree gives back the same tree (element names, attributes, children order).", "quantifier": "every tree with legal names and attribute values without the quote character", "why_tests_cant": "unbounded nesting", "anchors": ["include/cybozu/minixml.hpp:MiniXml::parse", "include/cybozu/minixml.hpp:InputStream::parseNode", "include/cybozu/minixml.hpp:operator<<"]}
{"id": "C29", "title": "Split and join", "statement": "Joining the pieces returned by Split with the separator gives back the input; the number of pieces is min(maxNum, separators + 1) for maxNum >= 1, and every piece but possibly the last contains no separator.", "quantifier": "every string, separator and maxNum >= 1", "why_tests_cant": "all strings and limits", "anchors": ["include/cybozu/string_operation.hpp:Split"]}
{"id": "C30", "title": "Trim", "statement": "Trim and TrimCopy remove exactly the maximal leading and trailing blank runs and nothing else, Trim in place equals TrimCopy, and both are idempotent; Strip removes exactly trailing CR/LF.", "quantifier": "every string and every blank predicate", "why_tests_cant": "all strings; in-place overlapping copy", "anchors": ["include/cybozu/string_operation.hpp:Trim", "include/cybozu/string_operation.hpp:TrimCopy", "include/cybozu/string_operation.hpp:Strip"]}
{"id": "C31", "title": "Case-insensitive comparison is a total order on case classes", "statement": "CaseCompare is reflexive, antisymmetric up to sign and transitive; it returns 0 exactly when CaseEqual is true, which is when the lower-cased strings are equal; CaseFind returns the first position at which the lower-cased target occurs; ToLower and ToUpper change the ASCII letters and nothing else, in place, to another string or behind what it holds.", "quantifier": "every pair/triple of strings", "why_tests_cant": "ordering laws quantify over triples", "anchors": ["include/cybozu/string_operation.hpp:CaseCompare", "include/cybozu/string_operation.hpp:CaseEqual", "include/cybozu/string_operation.hpp:CaseFind", "include/cybozu/string_operation.hpp:ChangeCase"]}
{"id": "C32", "title": "Frequency table indexing", "statement": "After building a frequency table, getIndex and getElement are mutually inverse between occurring elements and ranks, ranks are ordered by non-increasing frequency, and getFrequency returns the number of occurrences.", "quantifier": "every input sequence, whatever order the sort gives to ties", "why_tests_cant": "all inputs and all admissible sort outcomes", "anchors": ["include/cybozu/frequency.hpp:FrequencyVec", "include/cybozu/frequency.hpp:Frequency"]}
{"id": "C33", "title": "FILETIME conversion and time order", "statement": "setByFILETIME followed by getFILETIME returns the original value rounded down to milliseconds for every FILETIME not before 1970, getFILETIME followed by setByFILETIME restores the time, and operator< on Time is the order of the underlying milliseconds.", "quantifier": "every 64-bit FILETIME in range, every time/msec", "why_tests_cant": "2^64 values", "anchors": ["include/cybozu/time.hpp:Time::setByFILETIME", "include/cybozu/time.hpp:Time::getFILETIME", "include/cybozu/time.hpp:Time::operator<"]}
{"id": "C34", "title": "Time text round trip", "statement": "Time::fromString applied to the text produced by toString returns the same time and milliseconds; fromString never reads outside the given character range and rejects texts that do not denote a calendar time.", "quantifier": "every time from 1970 to 3000, every text", "why_tests_cant": "all texts; pointer arithmetic over variable-width month names", "anchors": ["include/cybozu/time.hpp:Time::fromString", "include/cybozu/time.hpp:Time::toString"]}
{"id": "C35", "title": "Option integers with unit suffix", "statement": "An option value consisting of a decimal number with optional suffix k/K/m/M/g/G is accepted iff number times factor fits the type, and the stored value is exactly that product; otherwise the option parser reports an error.", "quantifier": "every text and every integer type", "why_tests_cant": "overflow boundaries for each factor", "anchors": ["include/cybozu/option.hpp:convertInt"]}
{"id": "C36", "title": "Option parsing", "statement": "parse assigns every argument to the option that owns it or to the positional parameters exactly once and in order; a required option or parameter that is missing makes parse return false; unknown options make parse return false.", "quantifier": "every option specification and every argument vector", "why_tests_cant": "unbounded argument vectors", "anchors": ["include/cybozu/option.hpp:Option::parse"]}
{"id": "C37", "title": "UTF-8 round trip and exactness", "statement": "Encoding any valid Unicode scalar value to UTF-8 and decoding returns it and consumes exactly the encoded bytes; the decoder accepts exactly the well-formed sequences of the Unicode standard (no overlong forms, no surrogates, nothing above 0x10FFFF); a whole string converts to code points and back unchanged.", "quantifier": "every code point, every byte string", "why_tests_cant": "all byte strings up to any length", "anchors": ["include/cybozu/string.hpp:GetCharFromUtf8", "include/cybozu/string.hpp:StringT::toUtf8", "include/cybozu/string.hpp:ConvertUtf8ToUtf16"]}
{"id": "C38", "title": "UTF-16 round trip", "statement": "Encoding any valid Unicode scalar value to UTF-16 and decoding returns it; converting a well-formed UTF-8 string to UTF-16 and back gives the same bytes; lone surrogates are rejected.", "quantifier": "every code point, every UTF-16 sequence", "why_tests_cant": "all sequences", "anchors": ["include/cybozu/string.hpp:GetCharFromUtf16", "include/cybozu/string.hpp:ConvertUtf16ToUtf8", "include/cybozu/string.hpp:ConvertUtf8ToUtf16"]}
{"id": "C39", "title": "SHA-256/512 equal the standard under any chunking", "statement": "Feeding a message to Sha256/Sha512 in any sequence of update calls and a final digest gives the FIPS 180-4 hash of the concatenation (messages shorter than 2^61 bytes).", "quantifier": "every message, every chunking", "why_tests_cant": "block buffering state and padding boundary cases for every length mod block size; unbounded messages", "anchors": ["include/cybozu/sha2.hpp:Common::inner_update", "include/cybozu/sha2.hpp:Common::term", "include/cybozu/sha2.hpp:Sha256::round", "include/cybozu/sha2.hpp:Sha512::round"]}
{"id": "C40", "title": "SHA-1 equals the standard under any chunking", "statement": "Feeding a message to Sha1 in any sequence of update calls and a final digest gives the FIPS 180-4 SHA-1 hash of the concatenation, and the object is ready for a new message afterwards.", "quantifier": "every message, every chunking, every previous use of the object", "why_tests_cant": "as for SHA-2", "anchors": ["include/cybozu/sha1.hpp:Sha1::update", "include/cybozu/sha1.hpp:Sha1::digest", "include/cybozu/sha1.hpp:Sha1::round", "include/cybozu/sha1.hpp:Sha1::term"]}
{"id": "C41", "title": "HMAC-SHA-256", "statement": "hmac256 computes the RFC 2104 HMAC of the message under the key, for keys shorter than, equal to and longer than the block size.", "quantifier": "every key and message", "why_tests_cant": "three key-length regimes times all contents", "anchors": ["include/cybozu/sha2.hpp:hmac256"]}
{"id": "C42", "title": "SipHash-2-4", "statement": "siphash24 equals the SipHash-2-4 definition (8-byte little-endian words, length byte in the last word, 2 compression and 4 finalization rounds).", "quantifier": "every message length and content, every key", "why_tests_cant": "all tail lengths and all data", "anchors": ["include/cybozu/siphash.hpp:siphash24"]}
{"id": "C43", "title": "FNV hash composition", "statement": "hash32 over a concatenation equals hashing the first part and continuing from its result (when that intermediate value is not 0), and equals FNV-1a for the default seed; hash64 is FNV-1a with a final fold.", "quantifier": "every pair of strings and every seed", "why_tests_cant": "all strings; the zero seed is special", "anchors": ["include/cybozu/hash.hpp:hash32", "include/cybozu/hash.hpp:hash64"]}
{"id": "C44", "title": "XorShift generators never collapse", "statement": "XorShift never reaches the all-zero state from any seed and its state transition is invertible (no two states merge), so the sequence is purely periodic; reading n1 then n2 whole words equals reading n1+n2 at once.", "quantifier": "every seed, every number of steps, every read split", "why_tests_cant": "2^128 states, unbounded histories", "anchors": ["include/cybozu/xorshift.hpp:XorShift", "include/cybozu/xorshift.hpp:XorShift128Plus", "include/cybozu/xorshift.hpp:Xoroshiro128Plus", "include/cybozu/xorshift.hpp:read_local"]}
{"id": "C45", "title": "PCG has full period, and read gives its results in order", "statement": "From every seed the Pcg32 state sequence visits all 2^64 states before repeating. read(p, n) stores the next n results in order and nothing else: for uint32_t each a 32-bit result, for uint64_t each two of them (the first is the high half), for uint8_t the low byte of one result each; reading in two parts is reading at once.", "quantifier": "every seed, every n and buffer", "why_tests_cant": "2^64 steps cannot be run", "anchors": ["include/cybozu/pcg.hpp:Pcg32::get32", "include/cybozu/pcg.hpp:Pcg32::read"]}
{"id": "C46", "title": "shuffle permutes", "statement": "shuffle rearranges the array into a permutation of itself whatever numbers the generator returns, never touches memory outside the array, and every permutation is reachable.", "quantifier": "every array and every generator output sequence", "why_tests_cant": "all generator outputs", "anchors": ["include/cybozu/random_generator.hpp:shuffle"]}
{"id": "C47", "title": "AlignedArray behaves like a vector", "statement": "After any sequence of resize, clear, copy, move and swap, an AlignedArray has the size and contents a plain vector would have: old elements preserved, new elements zero when clearing is requested, copies independent, capacity never below size.", "quantifier": "every operation history", "why_tests_cant": "stale data after shrink-and-grow; unbounded histories", "anchors": ["include/cybozu/array.hpp:AlignedArray"]}
{"id": "C48", "title": "Event never loses a wake-up", "statement": "For every interleaving of wakeup and wait calls, each completed wait is matched by a wakeup, and a wakeup that is not yet consumed keeps some waiter (or the next wait call) able to proceed: no waiter sleeps forever while the event is signaled.", "quantifier": "every schedule of any number of threads, including spurious wake-ups", "why_tests_cant": "schedules cannot be enumerated by tests", "anchors": ["include/cybozu/event.hpp:Event::wakeup", "include/cybozu/event.hpp:Event::wait"]}
{"id": "C49", "title": "parallel_for visits each index once", "statement": "parallel_for(target, n, threadNum) calls the target for every index 0..n-1 exactly once (each thread a contiguous ascending range with distinct thread numbers), for every schedule, if all calls return true; an exception in any call is reported to the caller.", "quantifier": "every n, thread count and schedule", "why_tests_cant": "all n/threadNum remainders and schedules", "anchors": ["include/cybozu/parallel.hpp:parallel_for", "include/cybozu/parallel.hpp:parallel_util::Thread::threadEntry"]}
{"id": "C50", "title": "TopScore keeps the best entries", "statement": "After any sequence of add calls, getTable returns the min(maxSize, number of adds) entries with the highest scores in non-increasing order, earlier additions first among equal scores, without touching memory outside the table.", "quantifier": "every sequence of scores, every maxSize >= 1", "why_tests_cant": "all sequences; shifting code near the capacity limit", "anchors": ["include/cybozu/nlp/top_score.hpp:TopScore"]}
{"id": "C51", "title": "Compressed sparse positions round trip", "statement": "Iterating a sparse vector with compressed positions yields exactly the (position, value) pairs pushed, in order; pushing a position that is not larger than the last one (or too far away) throws and leaves the vector unchanged.", "quantifier": "every ascending position sequence, every interleaving of iteration and push", "why_tests_cant": "variable-length codes at every length boundary; a hidden dummy element is added and removed by iteration", "anchors": ["include/cybozu/nlp/sparse.hpp:CompressedPositionTbl", "include/cybozu/nlp/sparse.hpp:PositionTbl", "include/cybozu/nlp/sparse.hpp:SparseVector"]}
{"id": "C52", "title": "Sparse intersection, union and inner product", "statement": "Iterating Intersection yields exactly the positions present in both vectors with both values, Union exactly the positions present in either with missing values 0, both ascending; InnerProduct equals the sum of products of the dense vectors.", "quantifier": "every pair of sparse vectors", "why_tests_cant": "merge loops over all interleavings of positions", "anchors": ["include/cybozu/nlp/sparse.hpp:Intersection", "include/cybozu/nlp/sparse.hpp:Union", "include/cybozu/nlp/sparse.hpp:InnerProduct"]}
{"id": "C53", "title": "Gzip header skipping", "statement": "The decompressor consumes exactly the RFC 1952 member header (fixed part, extra field, name, comment, header CRC in any combination) and throws on a bad magic, method, reserved flag or truncated header.", "quantifier": "every header and every fragmentation of the stream", "why_tests_cant": "16 flag combinations times unbounded field contents", "anchors": ["include/cybozu/zlib.hpp:ZlibDecompressorT::readGzipHeader"]}
{"id": "C54", "title": "Partial writes and reads are completed", "statement": "File::write and Socket::write pass all bytes to the operating system exactly once and in order, whatever partial counts and interruptions (EINTR) it returns, or report an error; Socket::read delivers exactly the requested bytes or throws.", "quantifier": "every sequence of system call results", "why_tests_cant": "kernel behaviour is nondeterministic", "anchors": ["include/cybozu/file.hpp:File::write", "include/cybozu/file.hpp:File::read", "include/cybozu/socket.hpp:Socket::write", "include/cybozu/socket.hpp:Socket::read"]}
{"id": "C55", "title": "Handles are released exactly once", "statement": "Whatever interleaving of concurrent close / join / detach / move / destructor calls, each OS handle owned by a Socket or ThreadBase is closed (joined or detached) at most once, and exactly once after all objects are destroyed.", "quantifier": "every schedule of any number of threads", "why_tests_cant": "races cannot be tested exhaustively", "anchors": ["include/cybozu/socket.hpp:Socket::close", "include/cybozu/socket.hpp:Socket::moveFrom", "include/cybozu/thread.hpp:ThreadBase::joinThread", "include/cybozu/thread.hpp:ThreadBase::detachThread"]}
{"id": "C56", "title": "File name helpers", "statement": "GetBaseName splits a name at its last dot so that base + '.' + suffix is the name; HasExtension(name, e) holds iff name ends with '.' + e (or e is empty); the extension test agrees with the split for dot-free e.", "quantifier": "every name and extension", "why_tests_cant": "all strings", "anchors": ["include/cybozu/file.hpp:GetBaseName", "include/cybozu/file.hpp:HasExtension", "include/cybozu/file.hpp:ReplaceBackSlash"]}
{"id": "C57", "title": "Document frequency counts documents", "statement": "For every sequence of append/endDoc calls, the document frequency recorded for a word (compared case-insensitively) is the number of documents in which it was appended.", "quantifier": "every call history", "why_tests_cant": "unbounded histories, case variants inside one document", "anchors": ["include/cybozu/nlp/tfidf.hpp:Df::append", "include/cybozu/nlp/tfidf.hpp:TfIdf::append"]}
{"id": "C58", "title": "Left shift of a bit array", "statement": "ShiftLeftBit(dst, src, bitLen, shift, ext) writes the low bitLen bits of src shifted left by shift and or-ed with ext, and returns the bits shifted out above the last word; it works in place (dst == src) as well as between different arrays, and touches no word behind the shifted ones.", "quantifier": "every word size, array contents, bit length, shift below the word size and ext, aliased or not", "why_tests_cant": "unbounded arrays; carries across every word boundary; aliasing depends on the copy direction", "anchors": ["include/cybozu/bitvector.hpp:ShiftLeftBit"]}
{"id": "C59", "title": "XML search finds the first element in document order", "statement": "Node::getFirstTagByName returns the first element, in document order (parents before children, children left to right), whose name is the given one, and null exactly if no element of the subtree has it.", "quantifier": "every tree and every name", "why_tests_cant": "unbounded nesting", "anchors": ["include/cybozu/minixml.hpp:Node::getFirstTagByName"]}
{"id": "C60", "title": "Saved index structures load back as the same index", "statement": "For SucVectorT, WaveletMatrixT (with and without select table), CSucVector, Frequency and FMindexT: load, applied to a stream holding the bytes save wrote and anything after them, consumes exactly those bytes and leaves an object that answers every query as the saved one, whatever the object loaded into held before; on a stream cut anywhere in the middle it throws; on arbitrary bytes it either succeeds or throws, without undefined behaviour.", "quantifier": "every object built by init, every previous content of the destination, every way the stream splits its reads, every truncation", "why_tests_cant": "all contents, sizes and fragmentations; the interplay of levels and tables of different lengths", "anchors": ["include/cybozu/sucvector.hpp:SucVectorT::save", "include/cybozu/sucvector.hpp:SucVectorT::load", "include/cybozu/wavelet_matrix.hpp:WaveletMatrixT::load", "include/cybozu/csucvector.hpp:CSucVector::load", "include/cybozu/frequency.hpp:Frequency::load", "include/cybozu/fmindex.hpp:FMindexT::load"]}
{"id": "C61", "title": "Utf8ref reads text character by character", "statement": "Iterating Utf8ref over well-formed UTF-8 delivers exactly its code points in order and then false. On other text it delivers exactly the characters before the first ill-formed place and throws there, or, if told to ignore bad characters, never throws, always ends, and delivers only well-formed characters of the text in order, skipping pieces of one to four bytes.", "quantifier": "every byte string, both modes", "why_tests_cant": "all byte strings and positions of errors", "anchors": ["include/cybozu/string.hpp:Utf8refT::next", "include/cybozu/string.hpp:GetCharFromUtf8"]}
{"id": "C62", "title": "String edits and comparisons", "statement": "append, operator+, insert, replace, assign of cybozu::String have the effect their names say for every pair of objects, the same object included; appending or assigning UTF-8 text keeps exactly the well-formed part and throws exactly if the text is ill-formed; ==, !=, <, <=, >, >= between Strings and between String and std::string (either side) are the dictionary order of the code points, which is total and agrees with the byte order of the UTF-8 forms.", "quantifier": "every string, every text, every aliasing", "why_tests_cant": "order preservation of the encoding over all strings; all aliasings", "anchors": ["include/cybozu/string.hpp:StringT::assign", "include/cybozu/string.hpp:StringT::append", "include/cybozu/string.hpp:StringT::compare", "include/cybozu/string.hpp:operator<"]}
{"id": "C63", "title": "Starting a process tells the truth", "statement": "Process::run returns true exactly if the new program was started, false if it could not be (no such file, no permission); it always returns, and the program gets no descriptor of the caller beyond the standard ones, which are at /dev/null if asked for.", "quantifier": "every interleaving of parent and child, every outcome of open, dup2 and execv, every set of descriptors open in the caller", "why_tests_cant": "two processes race; the outcome depends on descriptor numbers and on an uninitialised limit", "anchors": ["include/cybozu/process.hpp:Start", "include/cybozu/process.hpp:toDevNull", "include/cybozu/process.hpp:Pipe"]}
{"id": "C64", "title": "isAlive follows the life of the process", "statement": "Over any sequence of calls, isAlive answers true while the process runs, and from its end on false; the first answer after the end carries the exit code (its low byte), or -1 if a signal ended it.", "quantifier": "every number of calls before and after the end, every way to end", "why_tests_cant": "depends on when the process ends relative to the calls", "anchors": ["include/cybozu/process.hpp:Process::isAlive", "include/cybozu/process.hpp:IsAlive"]}
{"id": "C65", "title": "Arguments reach a started Windows program unchanged", "statement": "The command line Start builds on Windows, taken apart by the rules of the C runtime, is the program name and exactly the given arguments.", "quantifier": "every program name without quotation mark, every list of arguments with any bytes", "why_tests_cant": "quoting has to be inverted for all strings", "anchors": ["include/cybozu/process.hpp:escape", "include/cybozu/process.hpp:Start"]}
{"id": "C66", "title": "The xorshift generators run through every state", "statement": "From any state but zero, XorShift, XorShift128Plus and Xoroshiro128Plus come back to it after exactly 2^128-1 steps and multiples of that, and reach every other state but zero on the way; the numbers XorShift gives repeat with exactly this period.", "quantifier": "every state but zero, every number of steps", "why_tests_cant": "the period is 2^128-1", "anchors": ["include/cybozu/xorshift.hpp:XorShift::get32", "include/cybozu/xorshift.hpp:XorShift128Plus::get64", "include/cybozu/xorshift.hpp:Xoroshiro128Plus::get64"]}
{"id": "C67", "title": "Compressed streams round trip", "statement": "Whatever is passed to ZlibCompressorT::write in any number of blocks is, after flush or destruction, one compressed stream (with correct gzip header, CRC and length on request), and ZlibDecompressorT returns exactly these bytes, then nothing, with isEmpty() true from then on and not earlier. A stream that breaks off never looks complete: an exception is thrown. All calls return.", "quantifier": "every division into writes, every sequence of read sizes, every fragmentation by the underlying stream, every buffer size, every zlib that keeps its documented promises", "why_tests_cant": "unbounded data and fragmentations; zlib's own buffering varies", "anchors": ["include/cybozu/zlib.hpp:ZlibCompressorT::write", "include/cybozu/zlib.hpp:ZlibCompressorT::flush", "include/cybozu/zlib.hpp:ZlibDecompressorT::readSome", "include/cybozu/zlib.hpp:ZlibDecompressorT::read"]}
{"id": "C68", "title": "The Windows condition variable wakes whom it should and never hangs", "statement": "With any number of threads using one ConditionVariable and its Mutex: wait returns with the mutex held, at most one thread has it; without a notification nobody is woken; notifyOne notices waiting threads exactly if there are any and makes a wake-up available to them; notifyAll called with the mutex held returns, and when it does every thread that was waiting has been woken.", "quantifier": "every number of threads up to 2^30, every interleaving of their steps, every sequence of lock, unlock, wait, notifyOne, notifyAll", "why_tests_cant": "schedules cannot be enumerated and the errors need a particular interleaving of three threads", "anchors": ["include/cybozu/condition_variable.hpp:ConditionVariable::wait", "include/cybozu/condition_variable.hpp:ConditionVariable::notifyOne", "include/cybozu/condition_variable.hpp:ConditionVariable::notifyAll", "include/cybozu/mutex.hpp:Mutex"]}
{"id": "C69", "title": "pLSI learning never lowers the likelihood and keeps probability distributions", "statement": "After startLearning(K), p(z), every p(x|z) and every p(y|z) are probability distributions, and stay so after any number of step(beta) calls with any temperatures; step() returns the log-likelihood of the observations under the parameters before the call and never lowers it, so a loop that stops when the gain is below a bound comes to an end; after a step p(x) and p(y) are the relative frequencies of users and items; search_items, similar_items and perplexity compute p(y|x), p(y,t), p(y|t), p(t|y) and exp(-mean log p(y|x)) of these parameters, the best items first (for tables of at least two entries, see C50).", "quantifier": "every set of observations, every number of classes, users and items, every number of steps and every temperature (real arithmetic)", "why_tests_cant": "the likelihood increases on a given data set for many wrong update formulas too; only the proof covers all data", "anchors": ["include/cybozu/nlp/plsi.hpp:Plsi::startLearning", "include/cybozu/nlp/plsi.hpp:Plsi::step", "include/cybozu/nlp/plsi.hpp:Plsi::search_items", "include/cybozu/nlp/plsi.hpp:Plsi::similar_items", "include/cybozu/nlp/plsi.hpp:Plsi::perplexity"]}
{"id": "C70", "title": "Random real numbers stay in their interval", "statement": "UniformRandomGenerator::getDouble returns a + (b-a) n/2^53 with 0 <= n < 2^53 made of the upper bits of two XorShift numbers, so a value in [a, b); init(seed) restarts the sequence of a new object with that seed; NormalRandomGenerator with the default seed gives values within six standard deviations of the mean.", "quantifier": "every interval, seed and state of the generator (real arithmetic)", "why_tests_cant": "the state space has 2^128 elements", "anchors": ["include/cybozu/nlp/random.hpp:UniformRandomGenerator::getDouble", "include/cybozu/nlp/random.hpp:NormalRandomGenerator::get"]}
{"id": "C71", "title": "The unit test framework reports exactly what happened", "statement": "AutoRun::run runs every registered test once, in order, even if others end with an exception; it prints the exact numbers of modules, successful checks, failed checks and exceptions, and returns 0 exactly if no check failed and no exception left init, a test or term. The macros count one check each: EXCEPTION succeeds exactly if an exception of the named class was thrown, EXCEPTION_MESSAGE if its text also contains the message, NO_EXCEPTION if nothing was thrown; none of them lets an exception out.", "quantifier": "all lists of tests with all behaviours (fewer than 2^31 checks)", "why_tests_cant": "tests of the test framework are themselves counted by it", "anchors": ["include/cybozu/test.hpp:AutoRun::run", "include/cybozu/test.hpp:CYBOZU_TEST_EXCEPTION_MESSAGE", "include/cybozu/test.hpp:AutoRun::getBaseName"]}
{"id": "C72", "title": "The logger closes its own files and no others", "statement": "Whatever sequence of OpenLogFile, SetLogFILE, PutLog, Log, SetLogPriority and so on a program makes, the logger never closes a FILE* that was given to it, closes each file it has opened at most once, exactly once by destruction if fclose reports no errors, and never writes to a closed file. A message below the priority leaves no trace, any other is one line in the current file, and one message to syslog if that is on. PutLog and Log never throw.", "quantifier": "all sequences of calls and all results of the library calls", "why_tests_cant": "double close and write after close depend on the whole history", "anchors": ["include/cybozu/log.hpp:Logger::openFile", "include/cybozu/log.hpp:Logger::set", "include/cybozu/log.hpp:Logger::closeFile", "include/cybozu/log.hpp:Logger::put", "include/cybozu/log.hpp:PutLog"]}
{"id": "C73", "title": "The approximate singular value decomposition is a projection of the matrix, and exact where it should be", "statement": "In exact arithmetic, ComputeSVD returns false exactly for an empty matrix or a rank of at most zero; otherwise it gives min(rank, rows, columns) singular values, not negative and in descending order, and U S t(V) is the matrix between two orthogonal projections whose images contain U and V. If as many values are asked for as there are rows, the matrix is reproduced within sqrt(2m)*1e-5 in the Frobenius norm, whatever it is. If U and V come out orthonormal and the rows of A are combinations of the sums of its row groups, it is reproduced exactly. OrthonormalizeMatrix gives pairwise orthogonal columns of length one or zero spanning what the argument spans up to 1e-5 per column, and leaves an orthonormal matrix alone. CompressCol and InitUnitMatrix agree, and the groups have sizes that differ by at most one.", "quantifier": "all real matrices of all sizes below the int overflow of the index product, all ranks, every correct decomposition of the small square matrix", "why_tests_cant": "the tests decompose a few fixed matrices and print the result", "anchors": ["include/cybozu/nlp/svd.hpp:ComputeSVD", "include/cybozu/nlp/svd.hpp:OrthonormalizeMatrix", "include/cybozu/nlp/svd.hpp:InitUnitMatrix", "include/cybozu/nlp/svd.hpp:CompressCol"]}
{"id": "C74", "title": "Shifts, rotations and moves of 128-bit registers", "statement": "shrBit<n> and shlBit<n> shift all 128 bits by n < 64, across the border of the halves; rotrByte<n> and rotlByte<n> rotate the 48 bytes [x2:x1:x0] for n up to 16 and undo each other; swap128 exchanges two aligned blocks (also a block with itself) and copy128 copies one, and neither changes any other memory.", "quantifier": "all register values, all counts, all memory contents and aligned addresses", "why_tests_cant": "2^128 values per register, 2^384 per rotation; no test exists", "anchors": ["include/cybozu/v128.hpp:V128::shrBit", "include/cybozu/v128.hpp:rotrByte", "include/cybozu/v128.hpp:swap128"]}
{"id": "C75", "title": "JSON values behave like values", "statement": "Whatever program is written with Json::Value - construction, copying, assignment between any two places (including a value and its own elements, or itself), insertion and removal of elements, swapping of variables, destruction - every place holds the value the statements mean: copies are independent of their originals. No memory is freed twice, used after it was freed, or left over when the last variable is gone. A statement that cannot get memory throws and changes nothing.", "quantifier": "all sequences of statements, all trees, all points at which an allocation fails", "why_tests_cant": "aliasing between source and destination at any depth and failure of any allocation cannot be enumerated", "anchors": ["include/cybozu/json.hpp:Value::Value", "include/cybozu/json.hpp:Value::operator=", "include/cybozu/json.hpp:Value::~Value", "include/cybozu/json.hpp:Value::swap"]}
{"id": "C76", "title": "A memory mapped file gives back what it took", "statement": "Whatever the system answers, constructing cybozu::Mmap either throws, leaving no descriptor, handle or mapping behind, or leaves exactly the mapping of the whole file (nothing for an empty file) with size() the size of the file; the destructor releases everything exactly once, with the size it was mapped with. The reason of a failure is read before anything is closed.", "quantifier": "all answers of the system calls, on Linux and Windows", "why_tests_cant": "the failures of fstat, mmap, CreateFileMapping cannot be provoked in a test, and a leak is not seen by one", "anchors": ["include/cybozu/mmap.hpp:Mmap::Mmap", "include/cybozu/mmap.hpp:Mmap::~Mmap"]}
{"id": "C77", "title": "A TLS client socket completes transfers and releases what it holds", "statement": "ClientSocket::write that returns handed exactly the bytes of the buffer to OpenSSL, once and in order, repeating unfinished calls with the same arguments as OpenSSL demands; read that returns filled the buffer with the next bytes of the peer and took no more; both return if OpenSSL reports no error and does not ask for repetition for ever. Over any sequence of connect, close and the destructor every socket is closed exactly once and the SSL object is used only while it exists and freed exactly once.", "quantifier": "all buffers, all sequences of answers of OpenSSL and the system, all sequences of calls", "why_tests_cant": "WANT_READ/WANT_WRITE, partial writes and failing handshakes in any order cannot be provoked", "anchors": ["include/cybozu/ssl.hpp:ClientSocket::write", "include/cybozu/ssl.hpp:ClientSocket::read", "include/cybozu/ssl.hpp:ClientSocket::connect", "include/cybozu/ssl.hpp:ClientSocket::close"]}
{"id": "C78", "title": "Digests, codes and ciphers are those of OpenSSL", "statement": "For every sequence of update, reset and digest a digest is that of the bytes given since the last digest or reset, however they were cut into pieces, and has the length of getSize; the static functions give the same; getName and getSize fit together and everything else throws. Hmac::eval is the code of the whole key and data. Cipher::setup gives OpenSSL exactly the key and the vector and throws for a wrong key length. Every context is freed exactly once.", "quantifier": "all sequences of calls, all byte strings, any implementation that keeps the promises of OpenSSL's manual", "why_tests_cant": "all ways of cutting a message and of mixing calls; keys longer than 2^31 bytes", "anchors": ["include/cybozu/crypto.hpp:Hash::digest", "include/cybozu/crypto.hpp:Hash::update", "include/cybozu/crypto.hpp:Hmac::eval", "include/cybozu/crypto.hpp:Cipher::setup"]}
{"id": "C79", "title": "Socket addresses are compared by host", "statement": "hasSameAddr is true exactly if two addresses stand for the same host, where an IPv4 address and the IPv6 address it is mapped to are the same host, whatever the ports; it is symmetric and transitive, and reflexive for addresses that were set. set takes the first address of the wanted family, returns exactly if there is one that fits, and leaves the object empty if it throws. getPort, verify and toStr agree with the bytes of the address.", "quantifier": "all addresses, all answers of the resolver", "why_tests_cant": "2^128 addresses in all pairs; the answers of resolvers vary", "anchors": ["include/cybozu/socket.hpp:SocketAddr::hasSameAddr", "include/cybozu/socket.hpp:SocketAddr::set", "include/cybozu/socket.hpp:SocketAddr::getPort"]}
{"id": "C80", "title": "A socket is set up as asked", "statement": "connect returns exactly if the connection stands (at once, or within the time limit without a pending error), and then the socket blocks again; bind returns only with a listening socket of the allowed families on the port; accept returns only with a connection and a well-formed address; a descriptor the system gave is never lost on a failure. queryAccept tells ready, time over and errors apart; time limits are handed over exactly and read back as set, up to the precision of the kernel; setLinger sets what it is given.", "quantifier": "all answers of the system calls, all ports, modes and times", "why_tests_cant": "failures at each call and timing of connections cannot be provoked", "anchors": ["include/cybozu/socket.hpp:Socket::connect", "include/cybozu/socket.hpp:Socket::bind", "include/cybozu/socket.hpp:Socket::queryAccept", "include/cybozu/socket.hpp:Socket::setLinger"]}
{"id": "C81", "title": "An exception tells everything that was put into it", "statement": "After any interleaving of << and what(), what() of cybozu::Exception is the name and all the texts (without NUL), joined by ':' in order; with stack traces enabled the trace is appended exactly once, at the first what(). The text of an error number gives the system message and the number so that both can be read back; a wide text becomes plain ASCII that determines it if it has no backslash. exception::makeString takes at most 16 bytes and never reads behind the size it is given.", "quantifier": "all names, texts, error numbers, messages, sequences of calls, amounts of memory left", "why_tests_cant": "any text may be put in, at any moment, and memory may run out in what()", "anchors": ["include/cybozu/exception.hpp:Exception", "include/cybozu/exception.hpp:ErrorNo", "include/cybozu/exception.hpp:exception::makeString", "include/cybozu/exception.hpp:exception::wstr2str"]}
{"id": "C82", "title": "A stack trace shows every frame", "statement": "StackTrace::toString gives one line per frame, in order; for a symbol 'object(function+rest' (no parenthesis in object) only the function is replaced, by its readable form if there is one; nothing outside the text of a symbol is read. Without symbols different lists of addresses give different texts.", "quantifier": "all symbol texts and addresses, all demanglers", "why_tests_cant": "symbol texts come from the system and the path of the program", "anchors": ["include/cybozu/stacktrace.hpp:StackTrace::toString"]}
{"id": "C83", "title": "The clock of the benchmarks measures exactly the intervals", "statement": "CpuClock shows the total length of the measured intervals and their number since construction or clear, although the counter of the processor starts anywhere and wraps around. CYBOZU_BENCH calls the function 1000 times per round, one to 100 rounds, ends after the first round with which the total exceeds 10^8 clocks and reports the clocks of exactly these rounds.", "quantifier": "all sequences of intervals, all values of the counter", "why_tests_cant": "the counter of the processor cannot be set in a test", "anchors": ["include/cybozu/benchmark.hpp:CpuClock", "include/cybozu/benchmark.hpp:CYBOZU_BENCH"]}
{"id": "C84", "title": "Sleep sleeps as long as asked and Begin starts one thread", "statement": "Sleep(msec) that returns has slept at least msec milliseconds however often signals interrupt it, and all its requests are valid. thread::Begin returns true only if it started the thread, once, with the stack size asked for, and the attribute object is destroyed exactly once.", "quantifier": "all times, all sequences of interruptions, all answers of the thread functions", "why_tests_cant": "interruptions and failures of the thread functions cannot be provoked", "anchors": ["include/cybozu/thread.hpp:Sleep", "include/cybozu/thread.hpp:thread::Begin"]}
{"id": "C85", "title": "A thread local pointer belongs to one thread and one object", "statement": "Over every history of Tls objects (not copied) used by any number of threads, with keys reused by the system: get() is what the same thread last gave to set() of this object, null before; an object without a key refuses set.", "quantifier": "all histories, all numbers of threads and objects", "why_tests_cant": "reuse of keys and histories of threads are unbounded", "anchors": ["include/cybozu/tls.hpp:Tls"]}
{"id": "C86", "title": "Environment, formatting and quit signals", "statement": "GetEnv is the value of the variable, also an empty one, and throws or gives the default exactly if there is none. format gives the whole text of printf and frees its buffer exactly once, also when it throws. A signal that reaches QuitSignalHandler calls quit of the application given last, never through a null pointer, whenever it comes.", "quantifier": "all environments, texts, moments of signals", "why_tests_cant": "moments of signals and failures of allocation cannot be chosen", "anchors": ["include/cybozu/env.hpp:GetEnv", "include/cybozu/format.hpp:format", "include/cybozu/quit_signal_handler.hpp:QuitSignalHandler"]}
{"id": "C87", "title": "A File closes the descriptor it opened exactly once", "statement": "Over the whole life of a File made without a handle, whatever the system answers and whatever is called, it opens a descriptor only while it holds none, closes only the one it holds and holds none after the destructor. A handle given to the constructor is closed only by close(). open takes exactly the documented modes and returns exactly if the file is open.", "quantifier": "all sequences of open, close, sync and the destructor, all answers of the system", "why_tests_cant": "failures of open, fstat, lseek, fdatasync and close cannot be provoked, leaks are not seen by a test", "anchors": ["include/cybozu/file.hpp:File::open", "include/cybozu/file.hpp:File::close", "include/cybozu/file.hpp:File::~File", "include/cybozu/file.hpp:File::verifyMode"]}
{"id": "C88", "title": "What is written through File is what the file contains", "statement": "Bytes written to a new or truncated file in any pieces and read through another object in any pieces are the same; objects opened for appending add their writes in order, none lost, whatever the old contents; seek and write change exactly the bytes at that place, a gap is zeros; consecutive reads give consecutive pieces; other files are untouched; writing through a file opened for reading and the reverse fail.", "quantifier": "all contents, sequences of writes and reads, numbers of objects, positions", "why_tests_cant": "contents and interleavings are unbounded", "anchors": ["include/cybozu/file.hpp:File::open", "include/cybozu/file.hpp:File::write", "include/cybozu/file.hpp:File::readSome", "include/cybozu/file.hpp:File::seek"]}
{"id": "C89", "title": "Directory listing, existence, renaming and the path of the program", "statement": "GetFileList appends exactly the entries other than . and .. that have the extension, in the order of the system, and closes the directory exactly once, also if the filter throws. DoesFileExist is the system's answer for the path without one slash at its end; RenameFile never renames onto a name that exists (name not ending in a slash or backslash). GetExePath splits paths of up to 4094 bytes after the last slash and takes '.exe' from the base name.", "quantifier": "all directories, names, filters, paths, answers of the system", "why_tests_cant": "all names and failing filters cannot be tried", "anchors": ["include/cybozu/file.hpp:GetFileList", "include/cybozu/file.hpp:DoesFileExist", "include/cybozu/file.hpp:RenameFile", "include/cybozu/file.hpp:GetExePath"]}
{"id": "C90", "title": "The suffix sorter sorts", "statement": "saisxx on a text of n characters below k returns 0 and leaves in SA[0..n-1] the positions of the text in the order of their suffixes, whatever SA and the allocated memory contained; it touches nothing behind SA[n-1] and no access leaves an array. The only other result for such a text is -2, and only if an allocation failed. Bad arguments are refused with -1 and SA is left as it was.", "quantifier": "all texts, alphabets, contents of the arrays, failing allocations", "why_tests_cant": "texts are unbounded and the recursion depth, the reuse of the array for the reduced text and the bucket arrays depend on their structure", "anchors": ["include/sais.hxx:saisxx", "include/sais.hxx:saisxx_private::suffixsort", "include/sais.hxx:saisxx_private::induceSA", "include/sais.hxx:saisxx_private::getCounts", "include/sais.hxx:saisxx_private::getBuckets"]}
{"id": "C91", "title": "The Burrows-Wheeler transform is right and loses nothing", "statement": "saisxx_bwt on a text of n characters below k writes to U[0..n-1] the characters before the sorted suffixes (the empty one included, the whole text left out) and returns the row of the whole text, whatever the work arrays contained; it touches nothing behind U[n-1] and no access leaves an array. Text and result determine each other: two texts of the same length with the same result are equal. The only other result for such a text is -2 with U unchanged, and only if an allocation failed; bad arguments are refused with -1.", "quantifier": "all texts, alphabets, contents of the arrays, failing allocations", "why_tests_cant": "texts are unbounded, and the last passes mix positions, characters and complements of both in one array; injectivity speaks about all pairs of texts", "anchors": ["include/sais.hxx:saisxx_bwt", "include/sais.hxx:saisxx_private::computeBWT", "include/sais.hxx:saisxx_private::suffixsort"]}
{"id": "C92", "title": "RandomGenerator fills the array or says it could not", "statement": "RandomGenerator::read fills the n elements of the array with the next bytes of the system's generator, in order, touching nothing else, and reports success exactly then; otherwise it reports failure (the throwing version throws). get32 and get64 are made of the next 4 and 8 bytes, consecutive calls use consecutive bytes, and every value comes from exactly one byte string.", "quantifier": "all element sizes, counts, buffers, device contents and points of failure", "why_tests_cant": "the device's bytes are unpredictable, its failures cannot be provoked, and the interesting sizes start at 2 GB", "anchors": ["include/cybozu/random_generator.hpp:RandomGenerator::read", "include/cybozu/random_generator.hpp:RandomGenerator::get32", "include/cybozu/random_generator.hpp:RandomGenerator::get64", "include/cybozu/random_generator.hpp:RandomGenerator::read_inner"]}
{"id": "C93", "title": "The MeCab wrapper returns the words", "statement": "Mecab::parse appends exactly the words of the text that MeCab returns: its pieces between blanks, without white space before them and without empty ones; out keeps what it had; a failure of MeCab is reported. Walking with set, isEnd and next shows every node before the end mark once; isNoun never reads behind the feature text; the tagger of an object that is not copied is deleted once.", "quantifier": "all texts, lengths and answers of MeCab", "why_tests_cant": "the answers of MeCab depend on its dictionary and version; the set of texts is unbounded", "anchors": ["include/cybozu/nlp/mecab.hpp:Mecab::parse", "include/cybozu/nlp/mecab.hpp:Mecab::set", "include/cybozu/nlp/mecab.hpp:Mecab::isEnd", "include/cybozu/nlp/mecab.hpp:Mecab::isNoun", "include/cybozu/nlp/mecab.hpp:Mecab::next"]}
{"id": "C94", "title": "Character classes of regular expressions on Windows", "statement": "For every 32-bit character the ctype facet for cybozu::Char answers is(upper, lower, digit, punct, cntrl, xdigit, space, print, alpha) as the C locale does for ASCII and no for all others, without reading behind its table; the array version agrees; scan_is and scan_not stop at the first character (not) in the class; tolower and toupper move exactly the ASCII letters; digit values are right in bases 8, 10 and 16; the class names of regular expressions stand for the classes they name.", "quantifier": "all 2^32 characters, all masks, all arrays", "why_tests_cant": "the characters are 2^32 and the arrays unbounded; the facet only exists on Windows with a static runtime", "anchors": ["include/cybozu/regex.hpp:std::ctype<cybozu::Char>::is", "include/cybozu/regex.hpp:std::ctype<cybozu::Char>::scan_is", "include/cybozu/regex.hpp:std::ctype<cybozu::Char>::narrow", "include/cybozu/regex.hpp:regex_traits<cybozu::Char>::value", "include/cybozu/regex.hpp:_Regex_traits<cybozu::Char>::_Names"]}
{"id": "C95", "title": "Atomic operations lose nothing under any interleaving", "statement": "AtomicAdd, AtomicCompareExchange and AtomicExchange do on both platforms what their comments say. For any number of threads and any interleaving: a counter ends at the sum of all additions, tickets drawn with AtomicAdd(p, 1) are all different, values handed over with AtomicExchange reach exactly one receiver, exactly one of the threads racing to replace 0 wins, a retry loop applies its function exactly once per round, and a lock built from AtomicExchange admits one thread at a time and is free when nobody is inside.", "quantifier": "all word sizes, values, numbers of threads, programs and interleavings", "why_tests_cant": "the number of interleavings is unbounded and the harmful ones are rare; a test run sees a few of them", "anchors": ["include/cybozu/atomic.hpp:AtomicAdd", "include/cybozu/atomic.hpp:AtomicCompareExchange", "include/cybozu/atomic.hpp:AtomicExchange"]}
{"id": "C96", "title": "Scoped locks exclude, are always released and do not deadlock in order", "statement": "For any number of threads whose shared variables are only touched inside blocks with an AutoLock for their mutex: two threads are never inside blocks of the same mutex; nobody else changes a variable while a thread is inside; no update is lost although it is a separate read and write; a block that is left by an exception releases its mutex, a mutex is only unlocked by its owner, and a finished thread owns none. If blocks are nested in a fixed order of mutexes there is no deadlock, and every execution ends.", "quantifier": "all numbers of threads and mutexes, all programs with nesting, exceptions and try blocks, all interleavings", "why_tests_cant": "races and deadlocks depend on rare interleavings; their number is unbounded", "anchors": ["include/cybozu/mutex.hpp:AutoLockT", "include/cybozu/mutex.hpp:Mutex::lock", "include/cybozu/mutex.hpp:Mutex::unlock", "include/cybozu/critical_section.hpp:CriticalSection"]}
{"id": "C97", "title": "Typed configuration values", "statement": "Section::getValue into short, int, int64_t and their unsigned types gives the number if the value's text is a decimal numeral of the type and throws otherwise; a default is used exactly if the key is missing, never for a malformed value; texts are given unchanged; getSection throws exactly for missing sections. A number stored as its itoa text is read back from the printed and loaded configuration.", "quantifier": "all sections, keys, values, defaults, types and configurations made by the API", "why_tests_cant": "the texts and configurations are unbounded; the round trip goes through four functions with different ideas of what a line is", "anchors": ["include/cybozu/config.hpp:Section::getValue", "include/cybozu/config.hpp:Section::getValueInteger", "include/cybozu/config.hpp:Section::ResultType", "include/cybozu/config.hpp:Config::getSection"]}
{"id": "C98", "title": "Sparse vectors that are saved, loaded and filled from maps", "statement": "SparseVector::save of any vector writes bytes from which load makes an equal vector, whatever the destination held, consuming exactly those bytes; from a proper beginning of them load throws. load of any bytes at all throws or gives a vector with ascending positions that push_back could have made. set(map) appends the pairs of the map and throws exactly at the first position that is refused. norm is the inner product of the vector with itself.", "quantifier": "all vectors made by any history of operations (below 2^30 - 1 entries), both position tables, all serializable value types, all byte streams and fragmentations, all maps", "why_tests_cant": "vectors, value types and corrupted files are unbounded; save iterates and thereby changes the hidden dummy of the compressed table", "anchors": ["include/cybozu/nlp/sparse.hpp:SparseVector::save", "include/cybozu/nlp/sparse.hpp:SparseVector::load", "include/cybozu/nlp/sparse.hpp:SparseVector::set", "include/cybozu/nlp/sparse.hpp:SparseVector::norm"]}
{"id": "C99", "title": "isSet, the usage message and the dump of options tell what was declared and what the command line gave", "statement": "After a successful `Option::parse`, `isSet(&x)` is true for the variable of an option exactly if the option occurs on the command line, for the variable of the i-th parameter exactly if there are more than i positional values, for the list exactly if values are left over, and it throws for an address that was not declared. `operator<<` prints for every option `name=value` with the value the command line gave, or the default, followed by `(set)` or `(default)` accordingly. `usage()` starts with `usage:` and the last component of `argv[0]`, shows all required options and all parameters, and has a line with the help text for every option, marked `(must)` exactly if the option is required. `getBaseName` gives the only suffix without `/` and `\\` that is the whole name or follows a separator. A copy of an `Option` knows no set variable, and copying one without a list parameter dereferences a null pointer.", "quantifier": "for all sequences of declarations that are accepted, all types of variables, all command lines and all texts", "why_tests_cant": "The answers depend on the whole sequence of declarations, on the addresses and on the reading of arbitrary command lines; a test fixes one of each.", "anchors": ["include/cybozu/option.hpp:250-335", "include/cybozu/option.hpp:383-392", "include/cybozu/option.hpp:660-738"]}
{"id": "C100", "title": "Matrices and vectors saved as text are read back, and no file makes the loaders build a matrix of the wrong shape", "statement": "A dense matrix or vector written by `SaveMatrix`/`SaveVector` is read back by `LoadMatrix`/`LoadVector`, every element being what the printed number denotes; a row-major sparse matrix written by `SaveSparseMatrix` is read back by `LoadSparseMatrix`, with the same positions, and by `LoadMatrix` as its dense form, with zero where there is no entry. For any file whose first line is not blank `LoadMatrix` returns, without undefined behaviour, `false` or a matrix that has exactly the number of rows and columns of the first line, both positive; and whenever `LoadSparseMatrix` returns `true`, for any file, its rows have ascending positions inside the matrix.", "quantifier": "for all matrices with between 1 and 2^31-1 rows and columns, all element values whose printed form can be read, and all files", "why_tests_cant": "The shape, the values and the contents of the file are unbounded; the round trip depends on where each number ends in the text, and malformed files cannot be enumerated.", "anchors": ["include/cybozu/nlp/svd.hpp:221-268", "include/cybozu/nlp/svd.hpp:270-317", "include/cybozu/nlp/svd.hpp:319-381", "include/cybozu/nlp/svd.hpp:383-431"]}
{"id": "C101", "title": "The keyword file of Df has exactly the rarest of the frequent words, and TfIdf reads it back", "statement": "After any calls of `Df::append` and `endDoc`, `term(lowerLimit, rate)` leaves the rarest words among those recorded more often than `lowerLimit`, each once, in ascending order of frequency, as many as the rate says of the number of such words; no word that is left out is rarer than one that is kept, whatever order `std::partial_sort` gives to ties. When no word has a tab or a line feed, the text printed by `operator<<` given to `TfIdf::loadKeywordFile` yields exactly these words as keywords, numbered in their order, and document frequencies counted with them are right for everything appended afterwards.", "quantifier": "for all sequences of calls, all limits that are not negative, all rates between 0 and 1, all results of partial_sort, and all documents appended afterwards", "why_tests_cant": "Ties are resolved differently by every library, and which words are kept depends on all documents; the way through the file must hold for arbitrary words.", "anchors": ["include/cybozu/nlp/tfidf.hpp:50-55", "include/cybozu/nlp/tfidf.hpp:87-111", "include/cybozu/nlp/tfidf.hpp:130-149"]}
{"id": "C102", "title": "The pipe version of Event counts wake-ups and the Windows version is an auto-reset event", "statement": "Without C++11 (pipe version) any number of threads calling `wakeup` and `wait` see a counting semaphore: the waits that have returned after reading plus the bytes in the pipe are the wake-ups that have written, so no wait returns without a wake-up of its own, a wake-up that finds nobody waiting is not lost and several are not merged; a wait returns under a fair scheduler if wake-ups keep coming. On Windows the calls are those of an auto-reset event, as in the C++11 version. The versions therefore differ: after two wake-ups two waits return in the pipe version only.", "quantifier": "for all numbers of threads, all capacities of the pipe, all schedules (fair ones for the liveness part)", "why_tests_cant": "Schedules are unbounded and a test sees one of them; a lost or merged wake-up shows only in rare interleavings.", "anchors": ["include/cybozu/event.hpp:30-61", "include/cybozu/event.hpp:88-117"]}
{"id": "C103", "title": "Each thread finds in a Tls what it has put there, and no key is leaked", "statement": "For any history of constructions, `set`, `get` and destructions of any number of `Tls` objects by any threads, `get` returns the value that the calling thread has last set with success in this object since its construction, or null; values of other threads and other objects, including earlier objects with the same key, never show. `set` that returns `false` changes nothing, and an object for which no key was left answers `false` and null. No key that is not in use is ever used, and when all objects are destroyed all keys are free again.", "quantifier": "for all histories of any number of threads and objects, all choices of keys by the system, and all failures of key creation and of setting", "why_tests_cant": "Reuse of keys, exhaustion and interference depend on the whole history and on choices of the system.", "anchors": ["include/cybozu/tls.hpp:49-76", "include/cybozu/tls.hpp:86-113"]}
{"id": "C104", "title": "queryAccept with epoll waits like the version with select and leaves nothing open", "statement": "With CYBOZU_SOCKET_USE_EPOLL, for a time of at least one millisecond, `queryAcceptNoThrow` returns 1 at the moment the socket is ready if that is in time, 0 at the end of the time, and -EINTR at a signal before both; `queryAccept` is true, false or throws accordingly; for descriptors below 1024 the version with select gives the same answer in the same time. However the call ends, the epoll instance it made is closed, after the socket was removed from it. The times 0 and below are treated differently by the two versions.", "quantifier": "for all descriptors, times, directions, all moments at which the socket becomes ready and a signal comes, and all failures of the system calls", "why_tests_cant": "The answer depends on the order of three independent times and on failures of the kernel; a test meets a few of them.", "anchors": ["include/cybozu/socket.hpp:67-155", "include/cybozu/socket.hpp:621-655", "include/cybozu/socket.hpp:663-668"]}
{"id": "C105", "title": "Parsed XML documents own their nodes: no leak, no double free, right parents, also when memory runs out", "statement": "Parsing a document makes new nodes only, linked into exactly the tree the text means, each used once, with the right parent pointers. `parse` of a new MiniXml followed by its destructor, for any text and for memory running out at any request for a node or a list entry, follows no dead pointer and frees every node exactly once. `getFirstTagByName` on a parsed document returns the first node in document order with the name, or null. A second `parse` of the same object, and the constructor that throws, lose nodes; `get()` of an unparsed object dereferences null.", "quantifier": "for all texts, all contents of the memory before, all names, and all sequences of successful and failing allocations", "why_tests_cant": "Ownership errors show only for particular texts and particular failing allocations; a test would have to fail each allocation of each document in turn.", "anchors": ["include/cybozu/minixml.hpp:125-164", "include/cybozu/minixml.hpp:372-395", "include/cybozu/minixml.hpp:400-443"]}
{"id": "C106", "title": "Process objects own their child: handles are closed once, copies hand over, answers are about the own child", "statement": "In any sequence of constructing, running, copying, assigning, asking and destroying Process objects that uses live objects only and does not assign to an object with a child, no assertion fails, no handle is closed twice, no two objects have the same child, and on Windows exactly the handles of live objects are open, so none is left when all objects are gone. A copy or assignment moves the child and leaves the source without one. Operations on other objects never change what an object answers. Outside these conditions: assignment to an object with a child leaks its handle, a reused pid confuses two objects, exit code 259 means alive on Windows, a forgotten child stays a zombie.", "quantifier": "for all sequences of operations on any number of objects, all outcomes of starting a process and all ends of children, both platforms, with and without NDEBUG", "why_tests_cant": "A test follows a few sequences; leaks and reused pids need particular orders of many operations and of events outside the program.", "anchors": ["include/cybozu/process.hpp:203-320"]}
{"id": "C107", "title": "CYBOZU_BENCH reports the time of the calls divided by their number", "statement": "CYBOZU_BENCH and CYBOZU_BENCH_T call the function loopN1 times in each of getCount() stretches, at least 1 and at most 100, and stop with the first stretch that brings the total over 10^8; CYBOZU_BENCH_C makes exactly the calls it is told. If time does not go backwards in a stretch, getClock() is exactly the total time of the stretches, also when the 64-bit counter wraps, and the average times the number of calls is that time. begin/end by hand add the time between them. Measuring never fails by itself, and the number printed times its unit is the average. A 32-bit counter that wraps, or a clock set back, yields a time near 2^64; a counter of 0 divides by zero.", "quantifier": "for all functions (also throwing ones), all clocks, all counter values and widths, all messages", "why_tests_cant": "Times cannot be chosen in a test; the wrap of a counter and the stop rule depend on them.", "anchors": ["include/cybozu/benchmark.hpp:61-210"]}
{"id": "C108", "title": "The log filter keeps every line and explains exactly the addresses of stack traces", "statement": "Bfd::getInfo answers with the first section that covers the address and knows a line near it. desymbol prints, for each input line in turn, the line without its line end, after 'file:line function ' exactly if its first [0x...] is a known address other than 0 and the line is inside a stack trace (or all is checked); a one-line stack trace becomes a block with one line per address. In particular the trace that an Exception writes, anywhere in a log, comes out with every address of the stack and its note. A section that ends at 2^64 is never found, a one-line trace is cut at the first word that is no address, and a line is cut at a NUL.", "quantifier": "for all inputs, all files and section tables, all messages and stacks", "why_tests_cant": "The state depends on all earlier lines, and the texts and section tables are unbounded.", "anchors": ["include/cybozu/bfd.hpp:63-102", "sample/desymbol.cpp:21-124", "include/cybozu/exception.hpp:136-155"]}
{"id": "C109", "title": "Ranges given by iterators, also of the string itself", "statement": "append(begin, end) and assign(begin, end) of StringT with a range of another string give the right text and leave every other string alone. insert and replace with a range give the right text for every source, the string itself included, and leave nothing behind. append with a range of the string itself is right exactly if the memory of the string suffices for all characters but the last, and otherwise reads freed memory; assign with the range [begin, begin + n) of the string itself turns all characters into NUL, and with a later range reads behind the end.", "quantifier": "for all strings, ranges, capacities and growth policies of the underlying basic_string", "why_tests_cant": "Whether a self-append goes wrong depends on the capacity, which the standard library chooses, and the freed memory often still holds the old text.", "anchors": ["include/cybozu/string.hpp:554-563", "include/cybozu/string.hpp:670-673", "include/cybozu/string.hpp:784-789", "include/cybozu/string.hpp:935-941"]}
{"id": "C110", "title": "CSV files: what reaches the disk and what is reported", "statement": "Rows written with CsvWriter to a file on a device with enough room are all written without an exception and CsvReader reads exactly them back. Whatever the buffer of the stream does and whenever the device is full, the file has in the end exactly the beginning of the text that fits; once a write has thrown, every later one throws; a file that cannot be opened is reported by every write, and keeps its contents. But a full device is not reported if the rest is only written by the destructor, a refused separator empties the old file, a missing file is read as one without rows, and a read error in the middle gives the beginning of a row as a row.", "quantifier": "for all rows, separators, buffer policies, sizes of the device and points of failure", "why_tests_cant": "Device sizes, buffer behaviour and failure points are unbounded, and failures at close are invisible to the caller.", "anchors": ["include/cybozu/csv.hpp:182-291", "include/cybozu/stream.hpp:40-48", "include/cybozu/stream.hpp:66-70"]}
{"id": "C111", "title": "The index search program finds what a plain search finds", "statement": "The program sample/fmindex_smpl, run with -c on a text of at most 255 different bytes (every UTF-8 text) and fewer than 2^31 - 1 bytes, writes an index file; run with -s on that file it prints for every word of the query file all positions of that word in the text, ascending and each once, which is what the run with -ss on the text itself prints; run with -r on the index file alone it writes the text. A text with all 256 byte values or of 2^31 - 1 bytes or more, or a sampling distance that is not positive, is refused.", "quantifier": "for all texts, query files, positive sampling distances, sizes of the pieces the stream delivers, outcomes of the unstable sort, contents of uninitialised memory", "why_tests_cant": "It composes suffix sorting, the Burrows-Wheeler transform, wavelet matrices, sampling and serialisation over all texts and queries.", "anchors": ["sample/fmindex_smpl.cpp:28-139", "include/cybozu/fmindex.hpp:141-282", "include/sais.hxx"]}
{"id": "C112", "title": "The index over compressed vectors answers as the default index", "statement": "With CYBOZU_FMINDEX_USE_CSUCVECTOR, which replaces every succinct vector in FMindexT by CSucVector, init on a new object succeeds for the same texts, getRange counts and locates every key correctly, and every query - getRange for every key, convertPosition and getPrevString for every row - gives the same answer as the default index of the same text.", "quantifier": "for all texts of fewer than 2^31 - 1 characters, keys, rows, lengths, positive sampling distances, outcomes of the unstable sort, contents of uninitialised memory", "why_tests_cant": "The two index types share no bit-level code: one counts in fixed blocks, the other decodes a dictionary of runs; agreement must hold for every bit string a text can give on every level.", "anchors": ["include/cybozu/fmindex.hpp:48-53", "include/cybozu/wavelet_matrix.hpp:24-306", "include/cybozu/csucvector.hpp:448-600"]}
{"id": "C113", "title": "A saved index over compressed vectors searches the same after loading", "statement": "With CYBOZU_FMINDEX_USE_CSUCVECTOR, an index built on a new object can be saved, and load, applied to a stream holding those bytes and anything after them, consumes exactly those bytes and gives an index that counts and locates every key of the text correctly, whatever the index loaded into held before; on a stream cut anywhere in the middle it throws; on arbitrary bytes load succeeds or throws without undefined behaviour. The same for a single CSucVector and for WaveletMatrixT over it.", "quantifier": "for all texts of fewer than 2^31 - 1 characters, keys, rows, positive sampling distances, previous contents of the destination, ways the stream splits its reads, truncations", "why_tests_cant": "All texts, contents, sizes and fragmentations; the claim joins suffix sorting, the dictionary coder and the serializer, each with its own width limits.", "anchors": ["include/cybozu/fmindex.hpp:258-282", "include/cybozu/wavelet_matrix.hpp:120-160", "include/cybozu/csucvector.hpp:600-617"]}
{"id": "C114", "title": "Compressing a file with the sample program and getting it back", "statement": "ZlibCompress gives 0, throws, or leaves a stream of the input within the room given; ZlibUncompress gives x exactly if the input begins with a stream of x and x fits. The sample program, for every command line, either is told an input and an output file (with -d anywhere) or reads and writes nothing; it compresses only to something not longer than the input, uncompresses only true streams, never writes the output on failure, and uncompressing what it compressed gives the original bytes if these are at most ten times as long as the compressed ones - otherwise it refuses its own output.", "quantifier": "for all argument lists, file contents, behaviours of mapping and writing files, and all implementations of compress2/uncompress that keep the promises of zlib.h", "why_tests_cant": "All command lines, contents, compression ratios and system failures, and every behaviour of zlib within its documentation.", "anchors": ["include/cybozu/zlib.hpp:302-323", "sample/zlib_smpl.cpp:6-41", "include/cybozu/option.hpp:530-640"]}
{"id": "C115", "title": "The sample program that checks the compressed bit vector on a file", "statement": "The comparison made by the program is exact: it reports nothing if and only if every bit the vector answers is the bit of the file, and otherwise reports the first 64-bit word with a wrong bit. For every file of less than half a GiB it compresses the bits, saves and loads the vector and reports nothing, also for files whose size is not a multiple of eight and for empty ones; nothing outside the mapped pages is read.", "quantifier": "for all file contents, all answers of any vector, all fragmentations of the stream, all argument lists", "why_tests_cant": "All files; whether the bits behind the end of the file in the last word could make a false alarm depends on size and contents.", "anchors": ["sample/csucvector_smpl.cpp:5-42", "include/cybozu/csucvector.hpp:467-559", "include/cybozu/bitvector.hpp:205-242"]}
{"id": "C116", "title": "Options in two steps: common options, a command, the options of the command", "statement": "The two-step use of the option parser shown in option2_smpl understands exactly the command lines of the form: any number of -x value, one of the words init, run, status, any number of the option of that command with a value, all values accepted; it then has the last values. Every other command line ends in a usage or help message, with one exception: without any argument the program's own name is taken for the command.", "quantifier": "for all argument lists and program names, all conversions of the values", "why_tests_cant": "All command lines, including values that look like commands or options and words repeated in any order.", "anchors": ["sample/option2_smpl.cpp:20-68", "include/cybozu/option.hpp:506-656"]}
{"id": "C117", "title": "The socket sample understands its command line and listens as documented", "statement": "The program socket_smpl begins to work exactly for the command lines made of -ip, -m, -p, -t with values of their ranges, -v, and at most one text, with a time limit in seconds whose milliseconds an int can hold; it works with the last value of each option or the default. Every other command line prints the usage or the help, or overflows. A server without -m listens on its port for both families, with -m 4 for IPv4 only, with -m 6 for IPv6 only. (-m 0, documented as both, listens for IPv4 only; other modes are not refused.)", "quantifier": "for all argument lists without the text 'minimum of int followed by more', all answers of the system to bind", "why_tests_cant": "All command lines with repeated options and all ports and modes; the network setup depends on the answers of the system.", "anchors": ["sample/socket_smpl.cpp:9-82", "include/cybozu/socket.hpp:574-614", "include/cybozu/option.hpp:121-181"]}
{"id": "C118", "title": "An object saved through any stream class is loaded back through any stream class", "statement": "Saving an object field by field makes the stream receive exactly the bytes of the object, for std::ostream and StringOutputStream, for MemoryOutputStream with enough room (with too little it throws and writes nothing outside), for File whatever the system does with the calls of write, and for ZlibCompressor. Loading those bytes from std::istream, StringInputStream, MemoryInputStream, File or Socket, whatever the system splits or interrupts, or ZlibDecompressor gives the same object and takes exactly its bytes. A truncated object throws. On any bytes nothing undefined happens. (The VecInputStream of the serializer sample is undefined at its end.)", "quantifier": "for all lists of fields of all types of the serializer and all values, all old values of the fields (sets and maps empty), all following bytes, all buffer sizes, all answers of the system without error, all compression libraries that satisfy their specification, raw and gzip", "why_tests_cant": "The tests save a few values to one stream; the claim is for every pairing of streams, every fragmentation and every object.", "anchors": ["include/cybozu/serializer.hpp:60-372", "include/cybozu/stream.hpp:40-269", "include/cybozu/zlib.hpp:60-325", "include/cybozu/file.hpp:250-330", "sample/serializer_smpl.cpp:14-120"]}
{"id": "C119", "title": "The table of select8 is what its generator computes", "statement": "select8(v, r) of misc/make_select8tbl.cpp returns, for every 64-bit word v and every r, the first position up to which (inclusive) v has exactly r ones, and 64 if there is none. The table in include/cybozu/select8.hpp holds exactly these values for bytes and r < 8, and the text the program prints is that table.", "quantifier": "for all 64-bit words and all r; for all entries of the table", "why_tests_cant": "The generator is not run by any test, and 2^64 words cannot be enumerated.", "anchors": ["misc/make_select8tbl.cpp:5-26", "include/cybozu/select8.hpp:14-279"]}
{"id": "C120", "title": "The wavelet matrix benchmark asks only defined questions and its check never fails", "statement": "In wm_bench_smpl, for every sequence of bytes shorter than 2^32 / 7, WaveletMatrix gives the same answers as the plain implementation Naive to get, rank, rankLt and select; every question the benchmark asks is in range, no division by zero happens, the sums it prints are those Naive would give, whatever the clock and the order in which the arguments are evaluated, and it ends with `select ok`. Naive itself counts and finds correctly. The program with up to 29 bits ends with status 0; anything but pairs of -b and a number gives the usage. (From 64 bits or with a negative number the shift is undefined.)", "quantifier": "for all byte sequences shorter than 2^32/7, all clocks, all states of the generator, all numbers of rounds, all command lines", "why_tests_cant": "The number of rounds depends on the time, and the comparison in the program is made for two questions on one sequence only.", "anchors": ["sample/wm_bench_smpl.cpp:7-182", "include/cybozu/wavelet_matrix.hpp:158-345"]}
{"id": "C121", "title": "The pLSI sample loads its file, learns monotonically and answers every question about known users and items", "statement": "plsi_smpl, given a file whose fields are numbers and whose items are distinct: the learned data are exactly the pairs (user, item) of the rows, each once; learning is always defined, makes at most Iter plain step() calls, prints likelihoods that never go down, has at most 44 lines with a gain below 1 and stops early only at the 44th; each number of a known user is answered with the ten items with the highest p(y|x), each known item with the ten highest p(y,t), p(y|t) or p(t|y) according to the last of sj/sc/sp, until the end of the input or a word that is neither a command nor a number, which ends the program with an error message. Pairs of -d, -k and -i are taken over, anything else gives the usage. (A blank line in the file and the number of an unknown user or item are undefined behaviour; two rows of one item fail or are concatenated; the temperature that is printed is not used.)", "quantifier": "for all files of numbers with fewer than 2^31 fields, all K >= 1, all Iter, all sequences of input words (real arithmetic)", "why_tests_cant": "The sample is not run by any test; the claim is about every data file and every dialogue.", "anchors": ["sample/plsi_smpl.cpp:15-30", "sample/plsi_smpl.cpp:108-207", "include/cybozu/nlp/plsi.hpp:Plsi::step", "include/cybozu/nlp/sparse.hpp:220-237"]}
{"id": "C122", "title": "The SVD sample writes the three factors of its input in files that can be read back", "statement": "svd_smpl with one or two words and any number of pairs `-r n` (n a number without a sign): the first word is the input, the second the base of the output names, the input if there is none; the last n is the rank, 10 if there is none; without a word or with a third one the usage is shown, the status is 1 and no file changes. For an input file that LoadSparseMatrix or LoadMatrix accepts and a positive rank, output.U, output.S and output.V are written with min(rank, rows, columns) columns or entries, LoadMatrix and LoadVector read them back (to eight digits), every other file stays as it was and the status is 0. (The status is also 0 when the input cannot be loaded; rank 0 leaves files that cannot be loaded; `-r` as the last word is an output name; a signed or malformed rank reads behind the end of the argument; an input x.U is overwritten with output x; a blank first line or a sparse row that does not ascend is undefined behaviour.)", "quantifier": "for all command lines, all contents of the file system, every decomposition with factors of the sizes that C73 proves", "why_tests_cant": "The sample is not run by any test; the claim is about every command line and every matrix file.", "anchors": ["sample/svd_smpl.cpp:32-94", "include/cybozu/nlp/svd.hpp:219-431"]}
{"id": "C123", "title": "The TLS sample sends its request and shows the whole answer of the server", "statement": "ssl_smpl host path: if the program ends with status 0, exactly `GET path HTTP/1.0` and a blank line were sent, everything the server sent until it closed was read, and an answer without NUL bytes and shorter than 2^31 is printed unchanged with its length; it ends with status 1 only for fewer than two arguments, a connection that could not be made or an error of the connection, in which case what was printed is a beginning of the answer. Without errors it ends. (An answer with NUL bytes is shown differently depending on how it was cut into pieces on its way; the length wraps at 2^31.)", "quantifier": "for all paths, all answers of the server and every sequence of answers of OpenSSL (partial transfers, wanted repetitions, errors)", "why_tests_cant": "The sample needs a TLS server; the claim is about every way the bytes arrive.", "anchors": ["sample/ssl_smpl.cpp:5-38", "include/cybozu/ssl.hpp:142-178"]}
{"id": "C124", "title": "The MeCab sample prints the words of a file and releases it", "statement": "mecab_smpl file: for a file of 1 to 2^30 bytes the words that MeCab separates are printed in order, each followed by a blank, then a line feed, and the status is 0; without an argument, for a file that cannot be mapped or is larger, or when MeCab cannot be started, nothing is printed and the status is 1; in every defined case the file is closed and the mapping removed. (An empty file makes the program read behind MAP_FAILED; a failure of MeCab on the text gives status 0 without a message.)", "quantifier": "for all file contents, answers of the system and results of MeCab", "why_tests_cant": "The sample is not run by any test, and the failures cannot be provoked.", "anchors": ["sample/mecab_smpl.cpp:7-39", "include/cybozu/nlp/mecab.hpp:33-55", "include/cybozu/mmap.hpp:91-140"]}
{"id": "C125", "title": "Unicode strings on standard streams: lines, words, output and validity", "statement": "Reading a well-formed UTF-8 stream with cybozu::getline into a String gives exactly the lines of the text (the last one also without delimiter), reading it with >> exactly the words between ASCII white space, and then the stream fails; strings written with << and an ASCII delimiter that is not in them are read back as they were. An ill-formed line is an exception behind which the stream stands at the next line. isValid tells exactly whether << and toUtf8 throw, and nothing is written then; for characters that are not negative it means scalar values only. (A read at the end empties the string; a delimiter outside ASCII cuts characters.)", "quantifier": "for all texts, all sequences of strings of Unicode scalar values, all delimiters below 0x80 and all strings for isValid", "why_tests_cant": "There are unboundedly many texts and ways to cut them into lines; the tests read a few fixed lines.", "anchors": ["include/cybozu/string.hpp:1475-1481", "include/cybozu/string.hpp:1548-1567", "include/cybozu/string.hpp:704-707"]}
{"id": "C126", "title": "A thread object runs its entry once per start and is not used after its end", "statement": "If every beginThread of a ThreadBase object is followed by a joinThread that waits, before the object is started again or destroyed, then in every interleaving threadEntry is only ever called on and run on the complete object, every joinThread returns true, all threads have finished when the destructor begins, and nobody is ever stuck. In all programs there is exactly one thread for every beginThread that returned true, and joinThread without time limit returns only after the thread has ended. (The destructor of ThreadBase alone is too late: the derived part is gone while the thread still runs or has not yet made its virtual call; a second beginThread forgets the first thread; on Windows a joinThread whose time is over makes the next one return true; on POSIX a failed start can leave a handle that the destructor joins.)", "quantifier": "for all sequences of calls of the owner, all interleavings with the threads, both platforms and all failures of the system", "why_tests_cant": "The tests run one schedule; the schedules in which the object dies first need an unlucky moment.", "anchors": ["include/cybozu/thread.hpp:105-163", "include/cybozu/thread.hpp:170-223"]}
{"id": "C127", "title": "The wavelet matrix built in place is the same matrix", "statement": "A WaveletMatrix compiled with CYBOZU_WAVELET_MATRIX_DIRECT_CONSTRUCT, which builds every level directly in its succinct vector, answers get, get(&val), rank, rankLt, size(val) and select exactly as one compiled without it, whatever the objects held before and whichever way they were built before; it refuses the same inputs; it can be saved and loaded by either program. (The saved bytes are not the same: ready() counts the zeros of the padding of the last block.)", "quantifier": "for all sequences shorter than 2^32, all value widths up to 16 bits, all earlier contents of the object, all positions, values and ranks", "why_tests_cant": "The macro is off in all builds of the tests; stale bits of an earlier init show only for particular pairs of sequences.", "anchors": ["include/cybozu/wavelet_matrix.hpp:168-223", "include/cybozu/sucvector.hpp:240-269"]}
{"id": "C128", "title": "Searching a Unicode text by characters", "statement": "fmindex_smpl built with USE_UTF32 indexes a UTF-8 text by characters: the index file of a text of at most 65534 different characters and fewer than 2^31 - 1 characters, loaded by another run, gives for every word of a UTF-8 query file all positions, counted in characters, ascending, each once, the same as the plain search; the text is recovered from the index file byte for byte. Files that are not UTF-8 and sampling distances that are not positive are refused. (A text with 65535 or more different characters is refused too, although its characters have 32 bits.)", "quantifier": "for all well-formed UTF-8 texts within the limits, all query files, all sampling distances, all orders of the hash map, all ways the stream delivers the file", "why_tests_cant": "The sample is not built with USE_UTF32; the test of FMindexT<cybozu::Char> checks one text and does not save or load; no test has texts with tens of thousands of different characters.", "anchors": ["sample/fmindex_smpl.cpp:10-12", "sample/fmindex_smpl.cpp:28-140", "include/cybozu/fmindex.hpp:65-127", "include/cybozu/string.hpp:554-578"]}
{"id": "C129", "title": "Searching characters and searching bytes", "statement": "String::find, rfind and the four find_..._of searches give the first (last) position at or behind (before) the offset that qualifies, npos iff there is none. For well-formed text the search for a string over characters and the search for its UTF-8 form over bytes find the same places, never one across the borders of characters; find_first_of and find_last_of agree for sets of ASCII characters (for other sets they do not). substr and erase split a text exactly and refuse offsets beyond the end. The byte build and the character build of fmindex_smpl find the same occurrences.", "quantifier": "for all texts and keys of Unicode scalar values, all offsets, all query files", "why_tests_cant": "Tests check a handful of literals of String::find; no test compares a search over characters with one over bytes, and no sample of texts rules out a match that straddles two characters.", "anchors": ["include/cybozu/string.hpp:1118-1366", "include/cybozu/string.hpp:806-809", "sample/fmindex_smpl.cpp:28-60"]}
{"id": "C130", "title": "tf-idf weights", "statement": "After any sequence of append and endDoc, TfIdf::term gives for each of the first documents with a keyword (as many as there are keywords) a sparse vector with ascending positions that holds exactly the keywords of the document, each with weight tf * ln(N/df), where N is the number of documents that have a keyword and df the number that have the word. Weights are never negative; a weight is zero exactly if the word is in all counted documents; of two equally frequent words the rarer one weighs more.", "quantifier": "for all keyword lists and all histories of append/endDoc with at least as many keyword documents as keywords", "why_tests_cant": "There is no test of term; a test would fix one collection, the claim relates the weights to the collection for every history.", "anchors": ["include/cybozu/nlp/tfidf.hpp:183-198", "include/cybozu/nlp/tfidf.hpp:151-171", "include/cybozu/nlp/sparse.hpp:233-237"]}
{"id": "C131", "title": "A queue guarded by a critical section and a condition variable", "statement": "Any number of threads put items into and take items from one queue under a CriticalSection, takers waiting on a ConditionVariableCs while the queue is empty, putters notifying one or all, before or after unlocking. At most one thread is inside; items come out in the order in which they went in, none twice and none lost; no wake-up is lost: when nothing can happen any more and somebody still waits, the queue is empty. With producers and consumers and at least as many puts as takes every maximal run with finitely many spurious wake-ups ends with all threads finished. The same holds for Mutex and ConditionVariable with pthreads.", "quantifier": "for all numbers of threads, all programs of puts and takes, all interleavings, all choices of the woken thread, spurious wake-ups included", "why_tests_cant": "The library's test sleeps 100 ms and hopes; lost wake-ups and hangs depend on the schedule, and the test itself can hang under a schedule that no run on an idle machine shows.", "anchors": ["include/cybozu/condition_variable_cs.hpp:44-67", "include/cybozu/critical_section.hpp:26-51", "include/cybozu/condition_variable.hpp:37-99"]}
{"id": "C132", "title": "A queue guarded by Mutex and ConditionVariable as built from a Windows semaphore and event", "statement": "The guarded queue of C131 on the Windows construction of ConditionVariable (a counting semaphore, a waiter count and an event): at most one thread has the mutex; items come out in the order in which they went in, none twice and none lost; no wake-up is lost: when nothing can happen any more and somebody still waits for the semaphore, the queue is empty. With producers and consumers and at least as many puts as takes the program cannot stop before all threads have finished, and every run ends within 4t + (8t+18)k steps for t threads and k operations.", "quantifier": "for all numbers of threads and of puts up to 2^30, all programs of puts and takes, notifying one or all inside the mutex or one outside it, all interleavings of the single Win32 calls", "why_tests_cant": "The construction has ten internal program points per call; the windows between the return from the semaphore, the decrement of the waiter count and the wait for the mutex are a few instructions wide, and a lost or surplus post shows only as a hang or as a wake-up of a later waiter.", "anchors": ["include/cybozu/condition_variable.hpp:37-98", "include/cybozu/mutex.hpp:122-135"]}
{"id": "C133", "title": "Comparing parts of strings, moving strings, and strings as keys of a hash table", "statement": "compare with positions and lengths gives the sign of the dictionary order of the named parts and throws exactly for a position behind an end; with a pointer it compares with the characters before the first NUL, with a pointer and a count with exactly that many, so a string equals its own c_str() exactly if it holds no NUL. A move hands over the characters whatever it leaves behind, also in std::move(a) + a. Two strings that differ in exactly one character, or in two neighbouring ones (as after exchanging them), never have the same hash; hash32 and hash64 never agree for sequences that differ in one element, and different seeds give different hashes.", "quantifier": "for all strings, positions, lengths, memory contents behind the argument, and all seeds", "why_tests_cant": "A collision test can only try some strings; that none of the 2^21 x 2^21 replacements in strings of any length collides is a statement about the arithmetic of the step, which a changed multiplier or a missing mask would break for rare inputs only.", "anchors": ["include/cybozu/string.hpp:1371-1435", "include/cybozu/string.hpp:1483-1496", "include/cybozu/string.hpp:1609", "include/cybozu/string.hpp:1711-1738", "include/cybozu/hash.hpp:6-36"]}
{"id": "C134", "title": "std::istream and std::ostream as streams, with their state flags, and streams on data that changes", "statement": "A request to a good std::istream delivers the next bytes, at most 2^31-1; afterwards the stream is good exactly if all came or one byte was asked for. In any history of requests and growth of the file, from any flags, what was delivered followed by what is left is the content: nothing is lost or repeated. Requests of one byte follow a growing file; without growth the flags do not matter. read(buf, size) gives all bytes or false with everything stored, and then the stream looks good exactly if one byte was missing. In a history of writes to an std::ostream there is a first failing one: everything before it is in the output, a proper part of it is, and all later ones throw and leave nothing; the variant with a flag does the same. StringInputStream on a string that is appended to delivers like a queue.", "quantifier": "for all contents, request sizes, initial flags, exception masks, failures of the buffer, histories of requests and growth, histories of writes", "why_tests_cant": "The flags matter only in sequences of calls around the end of the data, where the result depends on the size of the last request and on what was appended in between; tests read files that do not change.", "anchors": ["include/cybozu/stream.hpp:38-48", "include/cybozu/stream.hpp:63-84", "include/cybozu/stream.hpp:168-186", "include/cybozu/stream.hpp:225-255"]}
{"id": "C135", "title": "The variables of options: setting them from texts, showing them, and copies of the parser", "statement": "What the parser shows for an integer variable sets the same value again, for every integer type and whatever was in the variable. A string variable takes the whole argument. A vector variable takes, in order, the values of exactly those arguments that mean one; a refused one does not change it. A vector of integers of at least 16 bits is shown as texts with single blanks between them, none empty or with a blank in it, and these texts set the same vector. The text of a parse error tells its type. Adding an option keeps the variables of all others.", "quantifier": "for all integer types, values, previous contents of variables, arguments, vectors of values, capacities of the option table", "why_tests_cant": "Round trips hold at all values of eight types including both ends of the ranges, and the flags lost by a reallocation depend on the capacity of a vector, which no test of a fixed set of options shows.", "anchors": ["include/cybozu/option.hpp:53-100", "include/cybozu/option.hpp:114-119", "include/cybozu/option.hpp:157-170", "include/cybozu/option.hpp:199-279", "include/cybozu/option.hpp:336-362"]}
{"id": "C136", "title": "Operations on the lanes of a 128-bit register", "statement": "A register is determined by its parts of 8, 32 or 64 bits. What is stored at any address is loaded again, with the words in the order of memory, and the aligned and unaligned versions agree on aligned addresses. Words are given from the highest to the lowest in constructors and in MIE_PACK. Additions do not carry between words and subtraction undoes them. Comparison masks with pand, pandn and por give the signed maximum and minimum. pmovmskb of pcmpeqd is 0xffff exactly for equal registers. ptest tells disjointness and inclusion. Unpacking in two steps transposes four registers. Shuffles of bytes compose. Shifts with a count in a register agree with those by a constant and give zero from 64 on. psadbw is the sum of the distances of bytes and zero exactly for equal registers.", "quantifier": "for all registers, memories, addresses, indices and byte permutations", "why_tests_cant": "The registers have 2^128 values; a wrong order of operands or lanes in one wrapper is invisible on symmetric test values.", "anchors": ["include/cybozu/v128.hpp:22-24", "include/cybozu/v128.hpp:46-97", "include/cybozu/v128.hpp:118-160", "include/cybozu/v128.hpp:168-303"]}
{"id": "C137", "title": "Regular expressions on cybozu::String: results, lifetimes and patterns", "statement": "After a search in a String that is alive, prefix, match and suffix make up the text and every group is a part of it; a full match is the whole text. The versions without a result give the same answer, and they and replacing may be called with an argument that is converted to a String. All ways to give a pattern agree if it has no NUL.", "quantifier": "for all texts, patterns, engines whose spans lie in the text, and sets of living strings", "why_tests_cant": "Results that point into a string that is gone often still read the old bytes, so a test with a temporary passes; tests do not use patterns with NUL.", "anchors": ["include/cybozu/regex.hpp:314-330", "include/cybozu/regex.hpp:333-349", "include/cybozu/regex.hpp:388-442"]}
{"id": "C138", "title": "Iterating over the matches of a regular expression", "statement": "A loop with sregex_iterator or sregex_token_iterator over a String that is alive, with a regex that is alive, ends. It sees the matches that the standard names, in the order of the text, without overlap and none twice, even if the pattern matches the empty text. The tokens are the parts asked for of each match in turn, and with the parts {-1, 0} they make up the text. i++ gives the iterator as it was.", "quantifier": "for all texts, patterns, engines that find spans behind the start, and lists of parts", "why_tests_cant": "Termination on patterns that match the empty text and the order of matches hold for infinitely many texts; a reference into a copy that is gone often still reads the old match.", "anchors": ["include/cybozu/regex.hpp:351-363", "include/cybozu/regex.hpp:365-386"]}
{"id": "C139", "title": "Copies of a frequency table", "statement": "A Frequency of general elements answers as built (C32) whatever the program does with other tables, however the hash map rehashes while it is built, and after it is moved. A copy answers as its source; calling ready() makes any table, also a copy, independent of all others.", "quantifier": "for all programs that create, fill, copy, assign, move, clear and destroy any number of tables, in any order, and all rehashing behaviours", "why_tests_cant": "Iterators into a map that is gone often still read the old element, so a test of a copy passes; which insertions rehash depends on the library.", "anchors": ["include/cybozu/frequency.hpp:152", "include/cybozu/frequency.hpp:161-171", "include/cybozu/frequency.hpp:180-204", "include/cybozu/frequency.hpp:208-230"]}
{"id": "C140", "title": "Copies of the object that counts words in documents", "statement": "If TfIdf objects are copied and assigned only between documents, each object keeps counts of its own: its term and document frequencies are those of its own calls and of the calls it inherited with a copy, whatever is done to other objects (including destroying them), and no call is undefined. A copy made inside a document is independent too once its endDoc() is called.", "quantifier": "for all programs that create, fill, copy, assign and destroy any number of objects in any order, all words, and all reallocation behaviours of the vectors", "why_tests_cant": "A write through the pointer of another object lands in memory that is usually still there, so the counts of the object under test simply miss a word; which push_back reallocates depends on the library.", "anchors": ["include/cybozu/nlp/tfidf.hpp:113-129", "include/cybozu/nlp/tfidf.hpp:151-171"]}
{"id": "C141", "title": "Renaming and removing never lose a file that was not named", "statement": "With no other program interfering, no sequence of RenameFile calls with plain new names makes a file unreachable or changes its contents, whatever calls fail; RenameFile throws if the new name leads (through links) to something, and otherwise moves exactly one entry or changes nothing. RemoveFile removes exactly the named entry (a link, not its target) and refuses directories. GetFileSize is the length of the file the name leads to. DoesFileExist says whether the name leads to something.", "quantifier": "for all file systems with hard and symbolic links, all names, all sequences of calls, all failures of the system", "why_tests_cant": "A test makes a handful of files in one directory; links that lead nowhere, several names for one file and failing calls do not occur in it.", "anchors": ["include/cybozu/file.hpp:448-459", "include/cybozu/file.hpp:464-479", "include/cybozu/file.hpp:481-494", "include/cybozu/file.hpp:499-509"]}
{"id": "C142", "title": "Sha1::toString and get show the hash of the last finished message, at any time", "statement": "In any program using one Sha1 object, toString returns the forty lower-case hexadecimal digits (two per byte, higher half first, leading zeros kept) and get the twenty bytes of the hash the last digest returned, also while the next message is being given, and calling them changes no later result. Different hashes have different texts.", "quantifier": "for all sequences of update, digest, toString and get, all messages below 2^61 bytes", "why_tests_cant": "The tests print a few known hashes right after digest; words with leading zeros and questions in the middle of a message are rare or absent.", "anchors": ["include/cybozu/sha1.hpp:187-197", "include/cybozu/sha1.hpp:198-205"]}
{"id": "C143", "title": "Programs on files show the same on Windows and on POSIX unless they disturb an appender", "statement": "Any program of open, write, readSome, seek, getSize and close calls on File objects shows the same results, throws at the same calls and leaves the same files with the Windows branches as with the POSIX branches, provided that nobody seeks on an object opened for appending and nobody else writes to or empties its file meanwhile; in particular every program that never appends. One appending object puts all its texts at the end on Windows too. The transfer loops of Windows do what the POSIX loops do when no call is interrupted.", "quantifier": "for all programs, all files, all contents, all answers of the system in the transfer loops", "why_tests_cant": "Tests run on one system at a time with one object per file; that the branches agree for all programs, and where they do not, needs both at once.", "anchors": ["include/cybozu/file.hpp:83-105", "include/cybozu/file.hpp:121-135", "include/cybozu/file.hpp:252-299", "include/cybozu/file.hpp:300-352"]}
{"id": "C144", "title": "A time is printed as its format says, in every format, and the documented formats are read back", "statement": "Time::toString(out, format, appendMsec, doClear) puts into out (appended, or alone with doClear) exactly the text the strftime conversions of the format stand for on the Gregorian date of the time (each second has exactly one), then the milliseconds in three digits if asked for. It throws exactly if that text is empty or longer than 127 characters (or the year does not fit an int), and then out is as before the call, or empty with doClear. Every format %Y-%m-%d %H:%M:%S with '-' or '/', a numeric or named month, ' ' or 'T', and '.'+milliseconds, 'Z' or nothing at the end is read back by fromString. setCurrentTime keeps the clock to the millisecond and never runs backwards when the clock does not.", "quantifier": "for all formats of the listed conversions, all times from 1970 on, all milliseconds 0..999, all contents of out, all clock values; reading back for 1970..3000", "why_tests_cant": "The tests print a few dates in the default format; calendar, weekday and day of the year for all times and the 128-byte limit for all formats cannot be tried out.", "anchors": ["include/cybozu/time.hpp:167-204", "include/cybozu/time.hpp:206-211", "include/cybozu/time.hpp:215-228"]}
{"id": "C145", "title": "A bit vector may be its own source only where its storage stays in place", "statement": "v.append(v.getBlock() + k, n) with the source inside v, and v.append(v), give the bits of v followed by that part whenever the storage has room for the result (for example after reserve); when it has not, the source is freed by resize before it is read (finding: use after free on every such call). v.extract(v.getBlock(), pos, n) moves any range of v to its own beginning, fills the last word with zeros and leaves size and later words alone. v.extract(v, pos, n) is v.resize(n) for pos = 0, even if n > v.size(), and for pos > 0 throws for every range, after v was cut to n bits (finding).", "quantifier": "for all word widths, vectors, capacities, word offsets, positions and lengths whose sum fits size_t", "why_tests_cant": "Whether overlapping source and destination are read before they are written depends on every offset and length; a use after free usually passes a test.", "anchors": ["include/cybozu/bitvector.hpp:256-267", "include/cybozu/bitvector.hpp:295-298", "include/cybozu/bitvector.hpp:302-315", "include/cybozu/bitvector.hpp:319-323"]}
{"id": "C146", "title": "Several options may write the same variable", "statement": "When declarations of an Option share variables (two names for one variable, an option and a positional parameter, ...), parse returns true for exactly the command lines it would accept if every declaration had its own variable, and then every variable holds what the values given to it - by whichever name or position - make of its default, in the order of the command line; so the last value wins for assigned types and vectors collect all values in order. A variable no value goes to keeps the default of the last declaration, an undeclared variable is not touched, and an option with a variable of its own is not affected by the others. A copy of the Option made before parse writes the variables of the original. isSet(&v) answers only for the first declaration of v, so it is false when v was set by another name (finding), and two required names of one variable must both be given (finding).", "quantifier": "for all sequences of declarations and addresses, all conversions that accept or refuse a text independently of the variable, and all command lines", "why_tests_cant": "Which declarations share a variable and in which order names and positions are mixed on a command line is unbounded.", "anchors": ["include/cybozu/option.hpp:198-279", "include/cybozu/option.hpp:353-369", "include/cybozu/option.hpp:418-498", "include/cybozu/option.hpp:538-656", "include/cybozu/option.hpp:726-741"]}
{"id": "C147", "title": "A SHA-2 object used for any sequence of calls", "statement": "Whatever sequence of update, digest and clear is called on a Sha256 or Sha512 object, every digest with a large enough buffer returns the hash of the message of the object: the bytes given since the last clear; a digest with too small a buffer returns 0 and changes neither the buffer nor the message. So a caller that calls clear between a digest and what follows always gets the hash of exactly the bytes given since then. A digest that is not followed by clear leaves its padding in the message, and behind it as many bytes of the last padding block as the message had in its last block (finding: what is then hashed is neither the next message nor the concatenation).", "quantifier": "for all sequences of calls, all data, buffers and earlier contents of the block buffer, messages below 2^61 bytes", "why_tests_cant": "Sequences of calls and message lengths are unbounded; what remains in the block buffer depends on the length modulo the block size.", "anchors": ["include/cybozu/sha2.hpp:251-294", "include/cybozu/sha2.hpp:373-411", "include/cybozu/sha2.hpp:506-554"]}
{"id": "C148", "title": "Aligned arrays when memory runs out", "statement": "In every history of AlignedArray calls in which any of the requests for memory may be refused, a call throws bad_alloc exactly when it needs more elements than the capacity of its array and the request is refused; such a call leaves every array (contents, size, capacity) as it was, a constructor that throws makes no object; every other call does what it does for plain vectors. The capacity never shrinks, moves and swaps take it along. No memory is shared between two objects, none is lost: when the last object is gone all memory has been freed. With an alignment that is not a power of two of at least sizeof(void*) every array with an element throws (finding).", "quantifier": "for all histories of calls over any number of objects, all element sizes, all patterns of refused requests", "why_tests_cant": "A test cannot make the allocator fail at every place of every history; leaks on error paths are invisible to assertions.", "anchors": ["include/cybozu/array.hpp:20-29", "include/cybozu/array.hpp:78-103", "include/cybozu/array.hpp:108-180"]}
{"id": "C149", "title": "Programs started from several threads at once", "statement": "When any number of threads call process::Start (Process::run) at the same time on a POSIX system, then in every interleaving of their system calls and those of the children: a call that returns true and was not interrupted by a signal has started its own program; a call that returns false, also because pipe, fcntl or fork failed, has not started it and never will; when no call is under way the process has exactly the descriptors it had before. A started program has, of the caller's earlier descriptors, exactly those without FD_CLOEXEC that are below 3 or not below the bound of the closing loop. If no thread forks while another one is between pipe() and fcntl(FD_CLOEXEC), every call under way returns: some call or child can always take a step that brings the calls nearer to their end, and only finitely many such steps exist, whatever the started programs do. Without that condition a call can be stuck until a program started by another thread ends, and that program has both ends of the pipe (finding). A call interrupted by a signal returns true even if the program is never started (finding; the handlers of QuitSignalHandler interrupt calls).", "quantifier": "for all numbers of concurrent calls, all descriptor tables of the caller, all interleavings, all outcomes of pipe, fcntl, fork and execv, all signals, all values of the bound of the closing loop that spare the pipe of the call", "why_tests_cant": "The window between pipe() and fcntl() is a few instructions wide; a test that starts programs in threads passes by luck, and the absence of mix-ups in all interleavings cannot be sampled.", "anchors": ["include/cybozu/process.hpp:41-82", "include/cybozu/process.hpp:142-201", "include/cybozu/process.hpp:293-311", "include/cybozu/quit_signal_handler.hpp:47-53"]}
{"id": "C150", "title": "TopScore with scores that are not numbers", "statement": "After any sequence of TopScore::add calls on a new object with 2 <= maxSize < 2^31, whichever scores are NaN, nothing outside the table is touched, getTable returns min(maxSize, number of adds) entries, and those of them whose score is a number are the best of all the numbers added, highest first, earlier additions first among equals. At most as many NaN entries are in the table as were among the first maxSize additions; if there were none, the table is exactly the best maxSize numbers however many NaN are added later. If the first maxSize scores are NaN, the table is those entries for ever (finding).", "quantifier": "for all table sizes from 2 below 2^31, all sequences of additions, all choices of scores that are NaN", "why_tests_cant": "Comparisons with NaN break the order the insertion relies on at any position of any sequence; tests use a few ordinary scores.", "anchors": ["include/cybozu/nlp/top_score.hpp:29-34", "include/cybozu/nlp/top_score.hpp:41-67", "include/cybozu/nlp/top_score.hpp:68-72"]}
{"id": "C151", "title": "Objects saved with integers of a fixed size", "statement": "In a program built with CYBOZU_SERIALIZER_FIXED_SIZE_INTEGER, every object of any nested type (integers, PODs, strings, POD vectors, vectors, lists, sets, maps, unordered maps) that is saved is loaded back from a stream of any fragmentation, taking exactly its bytes; a file that ends early is an exception, and no content leads to undefined behaviour. The number of bytes depends only on the types and the numbers of elements, not on the values of integers. A program built without the macro reads integers of such a file wrongly without reporting it, and a small integer saved by the other kind of program is, for one built with the macro, a file cut short (findings).", "quantifier": "for all types, all values, all fragmentations of the stream, all contents of the file", "why_tests_cant": "The macro is set by no test; every test runs the other branch. The values, nestings and fragmentations are unbounded.", "anchors": ["include/cybozu/serializer.hpp:16-16", "include/cybozu/serializer.hpp:98-114", "include/cybozu/serializer.hpp:226-366"]}
{"id": "C152", "title": "Options of type double, char and bool", "statement": "An option of a floating point type whose text is, after white space, a decimal numeral (sign, digits with an optional point, optional exponent) followed by nothing or by something that cannot continue it, is set to that number, rounded once; it is refused only if the number is too large. Every other text is refused; then the variable is 0, or keeps its value if the text is blank. An option of type char takes the first character that is not white space, and is refused only if there is none. An option of type bool accepts a number 0 or 1 and refuses others. What follows the numeral or the character is ignored, so 1,5 is 1, 0x10 is 0, and ab is a (findings).", "quantifier": "for all texts, all earlier values of the variable, all floating point types", "why_tests_cant": "The tests give a few well-formed texts to double options; the claim is about all texts, including the ones that merely begin with a number and long digit strings.", "anchors": ["include/cybozu/option.hpp:106-112", "include/cybozu/option.hpp:199-204", "include/cybozu/option.hpp:226-232"]}
{"id": "C153", "title": "Pointers and references into a configuration", "statement": "The pointers and references to sections that querySection, getSection and appendSection return stay valid as long as the Config lives, whatever is created, appended, replaced or loaded afterwards and even if that throws; appending through one changes the section of that name. The pointers and references to values stay valid and show the same text unless the section is replaced by appendSection(name, section). The result of getValue(key) can be kept and converted later, and the reference from getValue(key, default) can be used later, as long as the strings given as arguments exist; otherwise a text that is not a number, or a missing key, is undefined behaviour (findings).", "quantifier": "for all histories of operations before and after the pointer is taken, all names, keys, values, files", "why_tests_cant": "A test uses a pointer after a few insertions; the claim is about every later history, and a dangling pointer often still shows the old text in a test.", "anchors": ["include/cybozu/config.hpp:103-129", "include/cybozu/config.hpp:169-188", "include/cybozu/config.hpp:220-228", "include/cybozu/config.hpp:265-319", "include/cybozu/config.hpp:336-369"]}
{"id": "C154", "title": "Leaving the main loop from a quit signal", "statement": "An application whose quit() calls Event::wakeup, installed with QuitSignalHandler, while threads wait on that Event. C++11 version: at most one call or handler is in the critical section; a handler that ends leaves the event signaled and no wakeup is lost; if no signal is delivered to a thread that is at that moment inside the critical section of that Event, the mutex is always released after at most three steps of its holder, so handlers end. If a signal is delivered to the holder, its handler, the interrupted call and every later wait and wakeup are stuck for ever (finding). Pipe version: a handler ends whatever the threads are doing, as long as the pipe is not full; every handler and every uninterrupted wakeup gives one byte that one wait takes; a wakeup of the program is cut short by a signal only if the pipe was filled; one signal can end two calls of wait (finding).", "quantifier": "for all numbers of threads, all interleavings of calls of wakeup and wait, all moments and threads at which signals are delivered, all capacities of the pipe", "why_tests_cant": "A test sends the signal while the program sleeps in wait, where all goes well; the moments at which the mutex is held are a few instructions long.", "anchors": ["include/cybozu/quit_signal_handler.hpp:34-57", "include/cybozu/event.hpp:65-85", "include/cybozu/event.hpp:88-117", "sample/quit_signal_handler.cpp:5-31"]}
{"id": "C155", "title": "Logging from several threads", "statement": "Any number of threads call PutLog or use Log objects while the log file is changed with OpenLogFile only when no other function of the logger runs, as documented. In every interleaving: no file is used that is not open; each file holds what it held when it was opened and then whole lines, never mixed; the lines of a thread are those it logged with a sufficient priority, each once, in its order, with time stamps that do not go back; when a call returns its line is in the file and not only in the buffer, behind everything logged there before; as long as syslog is used it gets the same texts per thread. The stamps of different threads may go back in the file (finding). OpenLogFile at the same time as another call can write to a closed file (finding, documented as not thread safe).", "quantifier": "for all numbers of threads, all texts and priorities, all interleavings, all moments at which the C library writes its buffers, all changes of the file", "why_tests_cant": "Interleavings of the library calls of several threads cannot be enumerated, and whether a line survives a crash depends on the moment of the crash.", "anchors": ["include/cybozu/log.hpp:45-77", "include/cybozu/log.hpp:84-101", "include/cybozu/log.hpp:121-131", "include/cybozu/log.hpp:195-206", "include/cybozu/log.hpp:223-232"]}
{"id": "C156", "title": "Several File objects append to one file", "statement": "Any number of File objects, in threads or processes, opened on the same file with std::ios::app (Linux) write to it at the same time. In every interleaving, however few bytes each ::write accepts, the file is what it held before followed by what the system calls accepted in their order, and for each object this is exactly what it was asked to write, in its order, up to the rest of a call that has not returned: nothing is lost, overwritten, repeated or invented. If every ::write accepts all its bytes and no text is longer than 2^31-1 bytes, texts are never mixed: the file consists of whole texts. The object that wrote last stands at the end of the file; no object, appending or not, stands behind it. An object that does not append and is the only one to write fills the file with exactly what it was asked to write. A partial ::write lets another object write into the middle of a text (finding). Several objects that do not append overwrite each other (finding).", "quantifier": "for all numbers of objects, all texts, all interleavings of the system calls, all numbers of bytes accepted", "why_tests_cant": "The order of system calls of several processes and the sizes they accept cannot be enumerated.", "anchors": ["include/cybozu/file.hpp:107-120", "include/cybozu/file.hpp:122-134", "include/cybozu/file.hpp:251-272"]}
{"id": "C157", "title": "A socket whose other end is gone does not kill the program", "statement": "A program that includes socket.hpp, whatever disposition of SIGPIPE it was started with, survives every Socket::write to a connection whose other end is gone: the write ends in an exception like after any other error, with a prefix of the bytes sent (as in C54), provided the program does not itself set SIGPIPE to its default and no static object writes to a socket before the library's static object is constructed. Findings: a static object that does write earlier can be killed (the order is unspecified); a handler for SIGPIPE installed by a static object may be replaced; every program started with Process inherits the ignored signal.", "quantifier": "for all programs as sequences of static initialization, changes of the disposition, writes and started programs; for all answers of the system", "why_tests_cant": "The order of static objects of different translation units is chosen by the linker, and when a peer goes away is not under the control of a test.", "anchors": ["include/cybozu/socket.hpp:171-204", "include/cybozu/socket.hpp:505-530", "include/cybozu/process.hpp:149-178"]}
{"id": "C158", "title": "A socket used by several threads acts on its own connection", "statement": "Any number of threads read, write, shut down and configure one Socket at the same time, while other parts of the program open and close descriptors. If the object is closed, connected or moved only while no other call on it is running, every system call in every interleaving acts on the connection the object had when the call began, or fails if it had none. If it is closed at the same time as a transfer, the transfer may act on a descriptor of another part of the program that got the same number (finding); if it gets a new connection at the same time, one write can be split over two connections (finding).", "quantifier": "for all numbers of threads, all interleavings, all choices of descriptor numbers by the kernel, all other opens and closes", "why_tests_cant": "The reuse of a descriptor number between reading sd_ and the system call needs a rare interleaving.", "anchors": ["include/cybozu/socket.hpp:401-405", "include/cybozu/socket.hpp:420-444", "include/cybozu/socket.hpp:471-524", "include/cybozu/socket.hpp:546-572", "include/cybozu/socket.hpp:673-684"]}
{"id": "C159", "title": "A mapped file while other programs change files", "statement": "Between and after the system calls of the constructor of Mmap, other programs may act. If they change files only by renaming new ones over old ones or removing names, the object shows for all its life exactly what the file contained when it was opened. If they also write into files, every byte below size() can be read and is what the file contains at that moment, what they write is seen at once at exactly the bytes they wrote, and size() stays as it was. If they shorten the file, also between fstat and mmap, reading below size() gives zero as far as the last page of the shortened file reaches and behind it ends the program with SIGBUS (finding); no other memory is ever read.", "quantifier": "for all contents, all page sizes, all interleavings with renames, removals, writes and truncations by other programs", "why_tests_cant": "What other programs do between two system calls, or during the life of the object, cannot be enumerated.", "anchors": ["include/cybozu/mmap.hpp:91-124", "include/cybozu/mmap.hpp:136-137"]}
{"id": "C160", "title": "The server of the socket sample serves clients in turn and loses no descriptor", "statement": "For any sequence of clients: as long as every client is accepted and sends something or closes in time, the server prints for each, in order, its address (with -v) and the first bytes it sent, at most 128 and up to the first NUL, with their number, and then waits again with only its own descriptor open. It still waits exactly if every client so far behaved like this. If an exception ends it, all descriptors are closed. One client that connects and sends nothing within the time limit ends the server (finding).", "quantifier": "for all numbers and sequences of clients and all answers of the calls", "why_tests_cant": "A leak or an end of the server depends on sequences of clients and failures without bound.", "anchors": ["sample/socket_smpl.cpp:48-69", "sample/socket_smpl.cpp:80-82"]}
{"id": "C161", "title": "OpenSSL is set up before and cleaned up after every use", "statement": "In a program that includes ssl.hpp, whatever static objects it has, in whatever order the linker has them constructed, and whatever connections main makes: if no static ClientSocket is constructed before the library's context object, OpenSSL is initialised first, then the context is made, at the end the context is freed and after that OpenSSL is cleaned up, each exactly once; all connections are made and freed between the making and the freeing of the context, except those that an object constructed before the context still owns at the end; every connection made is freed. Findings: a static ClientSocket constructed before the context ends the program before main; a static object constructed before the context that frees a connection in its destructor does so after the cleanup.", "quantifier": "for all sets of static objects, all orders of construction, all actions of main", "why_tests_cant": "The order of static objects is chosen by the linker; a test program has one order.", "anchors": ["include/cybozu/ssl.hpp:25-50", "include/cybozu/ssl.hpp:57-90", "include/cybozu/ssl.hpp:92-100", "include/cybozu/ssl.hpp:111-117", "include/cybozu/ssl.hpp:191-198"]}
{"id": "C162", "title": "parallel_for with a signed index type", "statement": "parallel_for may be used with a signed index type such as int. For every n >= 0 of the type and every positive number of threads no arithmetic overflows, no element behind the array of thread objects is used, and if all calls return true they are for 0, 1, ..., n-1, each once. If n or the number of threads is negative, or n is not 0 and there are no threads, an exception leaves parallel_for before any call is made. No arguments give undefined behaviour.", "quantifier": "for all widths of the type, all n and all numbers of threads, positive or negative", "why_tests_cant": "Overflow of a signed sum depends on n, the number of threads and the width together; tests use small positive numbers.", "anchors": ["include/cybozu/parallel.hpp:58-86", "include/cybozu/parallel.hpp:39-50", "include/cybozu/array.hpp:40-56"]}
{"id": "C163", "title": "Reading CSV on after an exception", "statement": "A program may catch an exception of CsvReader::read and call read again. Every call ends, uses up at least one byte of the input or finds its end, and no byte is read twice; with any input, after at most one call more than there are bytes the end is found, so a loop that goes on after exceptions ends. Findings: after 'bad character after quote' the rest of the line is not skipped but read as a line of its own; the limit of the size works only once: after its exception no later call ever throws it again.", "quantifier": "for all inputs, separators, limits and numbers of calls", "why_tests_cant": "What is left in the reader after an exception depends on the whole input before it; tests stop at the exception.", "anchors": ["include/cybozu/csv.hpp:59-137", "include/cybozu/csv.hpp:139-146", "include/cybozu/csv.hpp:153-167"]}
{"id": "C164", "title": "A SucVector after a load that threw", "statement": "SucVector::load overwrites the members one after the other, so an exception in the middle leaves a mixture. Whatever a failed load left in the object, init makes it a correct vector again; if not even the first number can be read, the object is as before; no failing load has undefined behaviour itself. Finding: on a new object, a file that ends after the first number or in the second one leaves the new size without the bits: rank1 and get of every position below size() then read outside of the vector.", "quantifier": "for all inputs, all ways the stream delivers them, all objects loaded into, all sizes", "why_tests_cant": "Every place at which an input can end, combined with every old content, gives another mixture.", "anchors": ["include/cybozu/sucvector.hpp:205-218", "include/cybozu/sucvector.hpp:270-290", "include/cybozu/serializer.hpp:163-205", "include/cybozu/serializer.hpp:228-235"]}
{"id": "C165", "title": "A Config after a load that threw", "statement": "A Config whose load threw can be used: a new object then has exactly the entries of the lines before the refused line, and the stream stands behind that line. Whatever was in the object before, every value that could be queried is still found. A program that catches the exception and calls load again on the same stream comes to the end after at most one exception per line. Finding: that second load starts in the global section, so the entries that follow the bad line inside [name] land in the global section.", "quantifier": "for all objects, all sequences of lines, all numbers of exceptions; the finding for all section names, keys and values", "why_tests_cant": "The bad line can be anywhere in any file, and any object can be loaded into.", "anchors": ["include/cybozu/config.hpp:336-369", "include/cybozu/config.hpp:152-162", "include/cybozu/config.hpp:265-273", "include/cybozu/config.hpp:50-65"]}
{"id": "C166", "title": "Line stream after an exception", "statement": "After LineStream::next has thrown, no line comes any more. If there is a line end within the first 2 * maxLineSize bytes that are left, every further call throws again and nothing is lost: getRemain followed by what the reader has is as before. Otherwise every further call returns false and getRemain is empty. Which of the two happens does not depend on how the reader fragments its data. An exception of the reader itself (readSome) loses nothing: after any number of calls it interrupted, going on delivers exactly the lines of what was left before. Findings: a loop that catches the exception to skip the line never ends, for every too long line below twice the limit; every longer line silently ends the stream, and all lines that follow are lost.", "quantifier": "for all limits of at least 2, all byte streams, all fragmentations, all moments, all numbers of further calls, all places where the reader throws", "why_tests_cant": "A test of the exception stops at the exception; what follows depends on the length of the line, the place in the buffer and the fragmentation.", "anchors": ["include/cybozu/line_stream.hpp:51-56", "include/cybozu/line_stream.hpp:74-116", "include/cybozu/line_stream.hpp:133-140"]}
{"id": "C167", "title": "Calling parse of one option parser several times", "statement": "When parse is called again on the same Option object (to read a second command line, or to ask the user again after it returned false), every positional parameter that was set before keeps its value, whatever the new arguments and the result are, and every option that was set before still counts as set. Findings: a value that was refused counts as set too, so after a refused value parse returns false for every other value of a single parameter; and a required option must be given in one call only: a later command line without it is accepted with the old value.", "quantifier": "for all parsers, all types of variables, all argument vectors and all numbers of calls", "why_tests_cant": "What a call does depends on what all calls before it left in the parser.", "anchors": ["include/cybozu/option.hpp:271-275", "include/cybozu/option.hpp:538-656"]}
