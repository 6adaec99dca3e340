#!/usr/bin/env python3
"""Regenerates /verif/properties.jsonl (one JSON object per line)."""
import json, os
P = []
def p(id, title, statement, quantifier, why, anchors):
    P.append(dict(id=id, title=title, statement=statement, quantifier=quantifier,
                  why_tests_cant=why, anchors=anchors))

PS = ["PersistentStorage.h: PersistentStorage::set/get", "PersistentStorage.cpp: PersistentStorage::PersistentStorage"]
p("C01", "Storage behaves like a last-write-wins map",
  "For any history of set/get calls on a freshly initialised PersistentStorage, with names of at most four characters and objects whose record fits the 16-bit size field, every get returns exactly the bytes of the most recent successful set for the same (name, object size), and nothing if there was none; every set returns the same success flag as the abstract bounded map.",
  "every capacity up to 2^32 - 2^16, every finite sequence of set/get with every name (<=4 chars), every object size and content",
  "histories, sizes and key sets are unbounded; tests try a handful of keys", PS)
p("C02", "Reopening never loses or invents a record",
  "Re-creating the storage object over the same memory with init=false, at any point of any history that began with an initialised storage, changes no later observable result: all gets and sets answer as if the reopen had not happened.",
  "every capacity up to 2^32 - 2^16, every history of calls with names of any length and records fitting the 16-bit size field, any number of reopens inserted anywhere",
  "the reopen point ranges over all histories and record layouts", PS)
p("C03", "set fails exactly when there is no room, and then changes nothing",
  "set on a name/size already present always succeeds and uses no extra space; set of a new record succeeds iff used + 6 + sizeof(T) <= capacity; when it returns false not a single byte of the memory region changes.",
  "every storage reached with records fitting the 16-bit size field, every name and object (of any size)",
  "boundary depends on the whole history of record sizes", PS)
p("C04", "Opening arbitrary memory is safe",
  "Opening a region holding arbitrary bytes with init=false terminates and reads only inside the region; afterwards any sequence of get and set calls terminates and never reads or writes outside the region. (False of the code when the last entry found is one byte long: the next set corrupts its size field and a later get reads out of bounds - proved with a witness; proved safe otherwise.)",
  "every byte content (corrupted or hostile) and size up to 2^32 - 2^16 of the region, every later sequence of calls with records fitting the 16-bit size field",
  "2^(8n) memory images", PS)
p("C05", "A crash while adding a record loses no earlier record",
  "If power is lost during a set that adds a new record, so that an arbitrary subset of the bytes that set writes reached memory, then after reopening with init=false every (name, size) that was readable before still reads back the same bytes.",
  "every reachable storage, every new record, every subset of its byte writes (every crash point and write reordering)",
  "crash points and torn subsets are exponential in number", PS)
p("C06", "A crash while overwriting damages only that record",
  "If power is lost during a set that overwrites an existing record, with an arbitrary subset of its byte writes applied, then after reopening every other (name, size) reads back unchanged, and the interrupted one is still present with each byte either old or new.",
  "every reachable storage, every overwrite, every subset of its byte writes",
  "exponentially many torn states", PS)
p("C07", "After a crash a get returns only values that were stored",
  "After a crash at any point of a set and a reopen, get of the interrupted (name,size) returns nothing, the old value or the complete new value. (False of the code: the size field is written before the data; what does hold is proved as a partial theorem and the violation is proved with a witness.)",
  "every reachable storage, every set, every prefix of its writes in program order",
  "crash points between individual stores cannot be scheduled by a unit test", PS)
p("C08", "A successful set can be read back under the same name, whatever its length",
  "If set(name, v) returns true then get(name) returns v. (False of the code for names longer than four characters; proved: it holds exactly when the name has at most four characters; for longer names the value is never readable under that name.)",
  "every name, object and reachable storage",
  "name lengths and previous contents are unbounded", PS)
p("C09", "A successful set can be read back, whatever the object size",
  "If set(name, v) returns true then get(name) returns v and later calls terminate. (False of the code for records of 65536 bytes and more: the 16-bit size field wraps; proved with a witness, and the bound under which it holds is proved.)",
  "every object size",
  "needs objects of 64 KiB and more, and non-termination cannot be observed by a test", PS)
p("C10", "Records of different sizes under one name are independent",
  "set<T>(name) never changes what get<U>(name) returns when sizeof(T) != sizeof(U), and get<U> with a size never stored under the name returns nothing; names equal up to trailing NULs denote the same record. (Of a longer name the first four characters are the name of the record.)",
  "every history of calls with records fitting the 16-bit size field, every name and pair of sizes", "unbounded histories and sizes", PS)
p("C11", "Initialisation wipes everything",
  "Constructing with init=true makes every byte zero and every get return nothing, whatever the memory held.",
  "every previous memory content, name, size", "2^(8n) previous contents", PS)
p("C12", "Byte-order conversion reverses the bytes and is its own inverse",
  "changeEndianess on 16 and 32 bit values yields the value whose big-endian byte list is the reverse of the argument's, hence applying it twice is the identity and it is injective.",
  "all 2^16 and all 2^32 inputs", "2^32 inputs", ["EndianConversion.h: changeEndianess"])
p("C13", "16x2 conversion swaps the bytes inside each half word",
  "changeEndianess16x2 swaps the two bytes of the upper half and of the lower half, leaves the halves in place and is an involution.",
  "all 2^32 inputs", "2^32 inputs", ["EndianConversion.h: changeEndianess16x2"])
p("C14", "Float conversion round-trips every bit pattern",
  "changeEndianessToFloat applied to the byte-swapped bits of any float yields a float with exactly the original bits, NaN payloads included.",
  "all 2^32 float bit patterns", "2^32 inputs", ["EndianConversion.h: changeEndianessToFloat"])
MV = ["MemoryView.h: MemoryView"]
p("C15", "Sub-views stay inside the view and show the right elements",
  "subspan(o,c), first(c) and last(c), for all argument values including out-of-range ones and npos, yield a view contained in the original whose elements are exactly the corresponding slice.",
  "every view, offset and count over the whole size_t range", "size_t range", MV)
p("C16", "Sub-view operations compose",
  "A sub-view of a sub-view equals the single sub-view with added offsets; first(n) followed by subspan(n) partitions the view; last(n) equals subspan(size-n).",
  "every view and every pair of argument pairs", "unbounded", MV)
BO = ["BufferedOut.h: BufferedOut", "BufferedOut.cpp: BufferedOut::operator<<"]
p("C17", "Text output is the truncated concatenation and never leaves the buffer",
  "Any sequence of string, C-string and char insertions produces exactly the concatenation of the pieces cut at the capacity, never writes outside the buffer, and size() never exceeds capacity().",
  "every buffer size, every finite sequence of pieces", "unbounded sequences", BO)
p("C18", "Integers print as their exact decimal representation or not at all",
  "Without width, inserting any integer appends its canonical decimal representation if it fits in the remaining space and otherwise leaves the text unchanged; the printed text parses back to the integer.",
  "every integer of each of the six types, every buffer state", "2^64 values times buffer states", BO)
p("C19", "Width pads on the left and never loses digits",
  "With width w pending, an integer is right-justified in exactly max(w, digits) columns using the fill character, the width applies to one integer only, and nothing outside the buffer is written. (False of the code when the digits exceed the width (digits are dropped) and when the width exceeds the remaining space (out-of-bounds write); both violations proved, the remaining region proved.)",
  "every integer, width, fill char and buffer state", "unbounded", BO)
p("C20", "Hex output is two upper-case digits per byte and stays in the buffer",
  "Inserting a byte view appends the two-digit upper-case hex of as many bytes as fit, never half a byte, never out of bounds, and decodes back to those bytes. Inserting a single byte is in bounds. (The latter is false of the code when fewer than two characters remain: proved with a witness.)",
  "every byte sequence and buffer state", "unbounded", BO)
p("C21", "Float output has the right sign, integer part and decimals",
  "Inserting a float with magnitude below 2^31 appends sign, integer part and the requested number of decimals, each a digit 0-9, the decimals being the truncated decimal expansion whenever the float arithmetic is exact. (False of the code for the sign of values in (-1,0) and when the integer part does not fit: violations proved.)",
  "every finite float bit pattern in range, every precision, every buffer state", "2^32 floats x precisions", BO)
p("C22", "Serial lines are sent completely and in order",
  "With a non-empty buffer of at most 65535 characters, the bytes handed to the UART by a sequence of insertions each closed by end or endl are exactly the buffered text of each message followed by a newline for endl - even when the buffer is exactly full - and nothing is left over for the next message.",
  "every sequence of messages and buffer size", "unbounded sequences", ["SerialOut.h: SerialOut", "esp32-esp-idf/SerialOut.cpp: SerialOut::flush", "arduino/SerialOut.cpp"])
p("C23", "data() shows all of the text",
  "data() has size() bytes, namely the text. (False of the code for texts of 65536 characters or more: the size is cut to 16 bits; proved with the exact bound.)",
  "every buffer state", "needs buffers over 64 KiB", BO)
FB = ["graphics/SimpleFrameBuffer.h: SimpleFrameBuffer"]
p("C24", "drawPixel changes exactly one pixel",
  "For colour depths 1, 4, 8, 16, 24 and 32, drawing at an in-range position stores the colour in exactly the addressed pixel of the packed big-endian image and leaves every other bit of the image unchanged.",
  "every buffer geometry that compiles, every image content, in-range position and colour", "images x positions x colours", FB)
p("C25", "2-bit frame buffers store the drawn colour",
  "Same as C24 for colour depth 2. (False of the code: wrong shift amount, and a negative shift (undefined behaviour) for half of the columns; violation proved for every geometry.)",
  "every geometry, image, position, colour", "no 2-bit test exists; statement is about all positions", FB)
p("C26", "clear makes every pixel the given colour",
  "For colour depths 1, 4, 8, 16, 24 and 32, after clear(c) every pixel of the image equals c (masked to the depth; non-zero means 1 for depth 1), whatever the image held. (For depth 2, see C25, clear of any non-empty image is undefined behaviour.)",
  "every geometry that compiles (height not negative), every previous image and colour", "images", FB)
p("C27", "The frame buffer reports the size it was declared with",
  "getWidth()/getHeight() equal the template arguments and the image has width*height*depth/8 bytes. (True for depth 1; false for deeper buffers, where getWidth() is depth times too large: exact value proved.)",
  "every instantiation allowed by the static assertions", "all instantiations", FB)
p("C28", "In-range pixel arithmetic cannot overflow or leave the image",
  "For every instantiation that compiles, the index computation for an in-range pixel has no int overflow and addresses bytes inside the image.",
  "every instantiation and in-range position", "all instantiations x positions", FB)
CV = ["graphics/Canvas.h: Canvas", "graphics/Canvas.cpp: Canvas"]
p("C29", "Drawing is clipped: no drawing call touches memory outside the image",
  "On a frame buffer of a depth other than 2 (C25), every Canvas drawing operation with arbitrary coordinates, sizes and radii whose coordinate arithmetic does not overflow (C42: at screen scale it never does) only modifies pixels inside the frame buffer, keeps its dimensions, and draws with the current colour only.",
  "every canvas, rotation, operation and argument for which the coordinates can be computed without overflow, hence every sequence of such operations", "coordinates and sequences unbounded", CV)
p("C30", "Rotation is a bijection between the logical and the physical screen",
  "In each rotation, the point mapping maps the logical rectangle [0,getSize()) one-to-one onto the frame buffer, preserves adjacency and orientation, and the matrix form used for text equals the coordinate form used for shapes.",
  "every size, rotation and point, coordinates and frame buffers of screen scale (up to 2^28 in each direction), depths other than 2 (C25)", "unbounded coordinates", CV)
p("C31", "drawPixel paints exactly the logical pixel",
  "drawPixel(p) sets logical pixel p if it lies inside getSize() and otherwise changes nothing.",
  "every canvas, rotation, point, coordinates and frame buffers of screen scale (up to 2^28 in each direction), depths other than 2 (C25)", "unbounded", CV)
p("C32", "Lines pass through both end points and follow the ideal line within half a pixel",
  "drawLine paints, for every column (row, if steep) between the end points, exactly one pixel, the one at distance at most half a pixel from the ideal line, both end points included, consecutive pixels touching; horizontal, vertical and single-point lines paint exactly the segment.",
  "every pair of end points, rotation, coordinates and frame buffers of screen scale (up to 2^28 in each direction), depths other than 2 (C25)", "unbounded coordinate pairs", CV)
p("C33", "Lines do not depend on direction",
  "drawLine(a,b) and drawLine(b,a) paint exactly the same pixels.",
  "every pair of end points, rotation, coordinates and frame buffers of screen scale (up to 2^28 in each direction), depths other than 2 (C25)", "unbounded coordinate pairs", CV)
p("C34", "drawRectangle paints exactly the border",
  "For positive width and height drawRectangle paints exactly the border pixels of the logical rectangle that are on screen. (For zero width or height it paints stray pixels: proved.)",
  "every rectangle with positive sizes, rotation, canvas, coordinates and frame buffers of screen scale (up to 2^28 in each direction), depths other than 2 (C25)", "unbounded", CV)
p("C35", "drawFilledRectangle paints exactly the rectangle",
  "drawFilledRectangle paints exactly the on-screen pixels of the logical rectangle, none when width or height is not positive.",
  "every rectangle, rotation, canvas, coordinates and frame buffers of screen scale (up to 2^28 in each direction), depths other than 2 (C25)", "unbounded", CV)
p("C36", "Rectangle transformation agrees with point transformation",
  "The set of physical pixels of transformCoords(rect) is the image of the set of logical pixels of rect under the point mapping.",
  "every rectangle, rotation, size, coordinates and frame buffers of screen scale (up to 2^28 in each direction), depths other than 2 (C25)", "unbounded", CV)
p("C37", "drawCircle paints exactly the midpoint circle",
  "drawCircle terminates for every radius and, for radius >= 1, paints exactly the on-screen pixels whose offset (dx,dy) satisfies the nearest-pixel condition -M <= dx^2+dy^2-r^2 < M with M = max(|dx|,|dy|) (minus the one sharp diagonal corner when it occurs); in particular the four cardinal points, and no pixel farther than half a pixel from the ideal circle: off the diagonals, exactly the pixels nearer than that along their row or column.",
  "every centre, radius, rotation, canvas, coordinates and frame buffers of screen scale (up to 2^28 in each direction), depths other than 2 (C25)", "unbounded radii", CV)
p("C38", "Filled circles are the outline plus its interior",
  "drawCircle(filled) paints exactly the pixels lying horizontally between outline pixels of the same row, without holes: all pixels inside the ideal circle and none farther than half a pixel outside.",
  "every centre, radius, rotation, canvas, coordinates and frame buffers of screen scale (up to 2^28 in each direction), depths other than 2 (C25)", "unbounded radii", CV)
p("C39", "Circles look the same in every rotation",
  "The painted circle is invariant under the eight symmetries of the square, so its logical image is the same in all four rotations.",
  "every centre, radius, rotation, coordinates and frame buffers of screen scale (up to 2^28 in each direction), depths other than 2 (C25)", "unbounded radii", CV)
EF = ["graphics/EmbeddedFont.cpp: EmbeddedFont::getBitmap", "graphics/GFXFontsAdapter.h"]
p("C40", "A character is drawn exactly as its glyph bitmap",
  "drawCharAt paints exactly the on-screen pixels whose bit is set in the glyph bitmap, at the glyph offset from the given position, reads only the ceil(w*h/8) bytes of the glyph, and returns the glyph advance.",
  "every font, character, position, rotation, canvas", "fonts and positions unbounded", CV + EF)
p("C41", "Strings advance by glyph widths",
  "drawStringAt paints each character at the start position plus the sum of the advances of all previous characters.",
  "every string, font, position, coordinates and frame buffers of screen scale (up to 2^28; text coordinates 2^27 in each direction), depths other than 2 (C25)", "unbounded strings", CV)
p("C42", "Drawing arithmetic does not overflow for screen-scale arguments",
  "For coordinates, sizes and radii of magnitude at most 2^15 (far beyond any screen) no signed arithmetic in the drawing routines overflows a 32-bit int.",
  "all arguments in the range", "2^64 argument tuples", CV)
p("C43", "Character lookup finds the right glyph",
  "getBitmap(c) returns the glyph stored for c for each character of the font's repertoire (0x20-0x7E, 0xA0-0xFF) and the first glyph for characters outside the font's range; it always terminates for a font whose first character is printable ASCII and which has at least one glyph. (Codes 0x7F-0x9F of an 8-bit font show an unrelated glyph: proved.)",
  "every font descriptor, every character, signed and unsigned char platforms", "fonts unbounded", EF)
p("C44", "Glyph bitmaps lie inside the font bitmap",
  "The view returned by getBitmap is contained in the font's bitmap array and getBitmap reads only inside the glyph table. (False of the code for the last glyph: it reads one element past the table; proved for every font.)",
  "every font descriptor, every character", "fonts unbounded", EF)
p("C45", "Text fits its computed bounds",
  "All pixels drawn by drawStringAt lie inside the rectangle computed by getTextBounds. (Vertically and for one-character strings proved; horizontally false of the code for longer strings: witness proved.)",
  "every font and string", "unbounded strings", ["graphics/EmbeddedFont.cpp: EmbeddedFont::getTextBounds"])
p("C46", "The shipped font table is consistent",
  "Every glyph of FreeSans15pt7b addresses bitmap bytes inside its bitmap array, consecutive glyphs do not overlap and leave no gap, and the table has exactly one glyph per character in [first,last].",
  "all 95 glyphs and every pixel of each", "tests draw only 8 distinct characters", ["graphics/GFXFonts/FreeSans15pt7b.h"])
GC = ["gfx-font-converter/main.cpp", "gfx-font-converter/BitStream.h: BitStream"]
p("C47", "BitStream packs exactly the written bits",
  "Any interleaving of single-bit and byte writes followed by flush emits exactly the written bits, most significant first, padded with zero bits to a byte boundary.",
  "every finite sequence of bit and byte writes", "unbounded sequences", ["gfx-font-converter/BitStream.h: BitStream"])
p("C48", "Converted glyphs draw as rendered",
  "A monochrome raster packed by the converter and drawn by Canvas::drawCharAt paints exactly the raster's set pixels, for every raster.",
  "every raster size and content, every bitmap pitch", "rasters unbounded", GC + CV)
p("C49", "Glyph offsets address the right bitmap",
  "In both output formats the offset written for each glyph is the sum of the bitmap sizes of the preceding glyphs, so that the glyph's bytes are found there, as long as the total stays below 65536 bytes; beyond that the binary format wraps (proved).",
  "every list of glyph bitmaps", "unbounded tables", GC)
p("C50", "Converter and renderer agree on the character order",
  "For every character code of the repertoire, the index at which the converter emits its glyph equals the index at which getBitmap looks it up, in 7-bit and 8-bit fonts.",
  "all character codes, both font kinds", "cross-module agreement, no test covers the converter", GC + EF)
p("C51", "The generated header lists all bitmap bytes",
  "The text written by the hex stream parses back to exactly the byte sequence written, for any number of bytes below 2^31, and its line buffer never overflows; the whole generated header reads as exactly the bitmap array, the glyph array and the font declaration, for font names which are identifiers of at most 300 characters and bitmaps below 100000 bytes (names too long for the line buffer are cut, proved).",
  "every byte sequence", "unbounded", GC)
p("C52", "Encoding conversion state stays in bounds and is stateless for single-byte encodings",
  "Whatever iconv answers, the internal buffer index stays inside the 4-byte buffer; if iconv never reports an incomplete sequence each call depends on its argument only. For multi-byte encodings a completed sequence is not reset (proved).",
  "every iconv behaviour and call history", "library behaviours cannot be enumerated", ["gfx-font-converter/EncodingConverter.cpp: EncodingConverter::convertRaw"])
UA = ["esp32-esp-idf/PacketUart.cpp: PacketUart"]
p("C53", "ReceiveUntil returns the received bytes up to the terminator, within the buffer",
  "On ESP32, whatever the arrival times and clock readings, ReceiveUntil writes only inside the buffer and returns exactly the received bytes in order, stopping right after the first terminator, when the buffer is full, or on timeout.",
  "every byte stream, arrival schedule, clock and buffer size", "schedules", UA)
p("C54", "ReceiveBetween returns a packet starting with the start byte, within the buffer",
  "On ESP32, whatever the schedule, ReceiveBetween writes only inside the buffer and a non-zero result starts with the start byte followed by the bytes received after it up to the first end byte, a full buffer or timeout. (False of the code when the millisecond counter wraps between start and deadline: a one-byte result with an unwritten byte; the overall timeout is also not enforced while waiting for the start byte; both proved.)",
  "every byte stream, schedule, clock", "schedules and counter wrap after 49 days", UA)
AU = ["arduino/PacketUart.cpp: PacketUart"]
p("C55", "Arduino packet reception stays inside the buffer",
  "On Arduino, Receive, ReceiveUntil and ReceiveBetween write at most bufferSize bytes and report that count; (false of the code for bufferSize 0 (Until) and below 2 (Between): the requested length wraps; proved). ReceiveUntil appends the terminator even on timeout (proved).",
  "every stream, schedule, buffer size", "schedules", AU)
p("C56", "Arduino SPI transfer moves every byte once and in order",
  "SpiBus::transfer puts exactly the length bytes on the wire in order and stores the answers in the same positions, for every length, in all three modes, inside one transaction.",
  "every length 0..65535, data, peer answers", "lengths x data", ["arduino/SpiBus.cpp: SpiBus::transfer"])
p("C57", "ESP32 SPI transfer chunks cover the data exactly",
  "The chunks submitted by transfer concatenate to the data, each at most the maximum transfer size, and true is returned iff all were accepted; on failure a prefix of the data was sent. Through an object without a device (before a successful init) nothing is sent and a call with something to transfer returns false.",
  "every length, maximum, driver error schedule", "error schedules", ["esp32-esp-idf/SpiBus.cpp: SpiBus::transfer"])
p("C58", "Releasing an SPI bus frees it once and reports success",
  "release() removes the device, frees the bus and returns true; a second release does nothing. (False of the code: the success test is inverted; proved, together with what actually happens.)",
  "every driver answer sequence", "driver error schedules", ["esp32-esp-idf/SpiBus.cpp: SpiBus::release"])
p("C59", "Chip select brackets every access",
  "While a ChipSelector is alive the pin is low, and after its scope it is high again, for any nesting-free sequence of scopes and any pin operations of other pins.",
  "every program of scopes", "unbounded programs", ["GpioDigitalPin.h: ChipSelector"])
p("C60", "Combined I2C transfer reads only after a successful write",
  "sendThenReceive issues the read iff the write succeeded and returns true iff both did; on Arduino a failed read leaves the caller's buffer untouched.",
  "every bus behaviour", "bus error schedules", ["I2CDevice.h: I2CDevice::sendThenReceive", "arduino/I2CDevice.cpp"])
p("C61", "delayMicroseconds waits at least the requested time",
  "On ESP32, for every monotone clock behaviour, when delayMicroseconds(n) returns at least n microseconds have elapsed on that clock.",
  "every clock schedule and n", "schedules", ["esp32-esp-idf/Delays.cpp: delayMicroseconds"])
p("C62", "Millisecond delays wait at least the requested time",
  "On ESP32 delay(ms) waits at least ms milliseconds. (False of the code: the division by the tick period truncates; exact tick count proved.) getMillisecondTicks is the microsecond clock divided by 1000 modulo 2^32.",
  "every ms and tick period", "all inputs", ["esp32-esp-idf/Delays.cpp: delay"])
p("C63", "Light sleep ends at the requested time",
  "On ESP32 ligntSleep(ms) returns no earlier than ms milliseconds after the call and never requests a wake-up later than the deadline. (False of the code when the counter passes the deadline between the loop test and the wake-up computation, or when the deadline wraps; violations proved, the rest proved.)",
  "every clock schedule", "the race window is a single instruction", ["esp32-esp-idf/SleepFunctions.h: ligntSleep"])
p("C64", "Analog pin lookup is exact",
  "On ESP32 the channel used for a pin is one that the channel map assigns to that pin, and reading fails with -1 iff no channel is mapped or the driver fails; it creates the unit, configures the channel and reads it, in this order, and stops at the first failure; repeated reads keep working. (The last part is false of the code: the converter unit is never released; proved against a single-owner driver.)",
  "every channel map, pin, driver behaviour", "driver histories", ["esp32-esp-idf/AnalogPin.cpp: AnalogPin::singleRead"])
p("C65", "Pin configuration touches exactly the requested pin and mode",
  "GpioDigitalPin::init configures exactly the object's pin with the requested direction and pull resistor and without interrupt, returns the driver's result, and on ESP32 refuses an invalid pin without calling the driver.",
  "every pin number, direction, pull mode, validity mask and driver answer", "all pins x modes x driver answers", ["esp32-esp-idf/GpioDigitalPin.cpp: GpioDigitalPin::init", "arduino/GpioDigitalPin.cpp: GpioDigitalPin::init"])
p("C66", "Packet UART reports the number of bytes transferred",
  "On ESP32 the results of Receive and Send are the numbers of bytes the driver transferred, never more than requested. (False of the code for driver errors: -1 is reported as 65535.)",
  "every driver answer", "driver errors", ["esp32-esp-idf/PacketUart.cpp: PacketUart::Receive", "esp32-esp-idf/PacketUart.cpp: PacketUart::Send"])
p("C67", "I2C probe addresses the device",
  "testAddress puts the seven-bit address on the bus, in the upper bits, with the write bit.",
  "every address", "all addresses", ["esp32-esp-idf/I2CBus.cpp: I2CBus::testAddress"])
p("C68", "The storage stays usable after any number of power losses",
  "Every history of calls, reopens and power losses during set (in program order, after any number of byte writes, any number of times) is answered exactly like a bounded map in which a power loss leaves a prefix of the new object; no undefined behaviour, no acknowledged write is lost. Excluded, and proved to fail: power lost between the two bytes of a size field of 256 or more that is 1 to 5 modulo 256.",
  "every region, every history, every crash point", "crash points between individual stores cannot be scheduled by a unit test; histories are unbounded", PS)
p("C69", "Corners of a rectangle are the expected points",
  "bottomLeft, topRight and bottomRight return the last pixel inside the rectangle on the respective side whenever that point is representable; in narrow element types bottomLeft and bottomRight never overflow and agree with the mathematical corner modulo the range of the type (topRight does not compile for them).",
  "all rectangles, element types int8_t, uint8_t, int16_t, uint16_t, int",
  "tests/BaseGeometryTest.cpp checks one rectangle; overflow at the edge of the range is never exercised",
  ["graphics/BaseGeometry.h:65-105"])
p("C70", "Geometry arithmetic obeys the usual laws",
  "Compound assignment agrees with the binary operator; translating a rectangle translates its corners and keeps its size; translations commute; subtraction undoes addition and division undoes multiplication of sizes; division truncates towards zero and is undefined exactly for zero and INT_MIN / -1; == is equality and != its negation; conversion between element types keeps every representable value; the matrix product is the textbook one.",
  "all values of the element types, all translations",
  "algebraic laws over 2^32 values per coordinate; the tests check a single example each",
  ["graphics/BaseGeometry.h:9-120"])
p("C71", "Byte views alias the elements",
  "as_bytes and as_writable_bytes of a valid view give a valid view of exactly size()*sizeof(T) bytes holding the object representations of the elements in order; writing byte k changes byte k % sizeof(T) of element k / sizeof(T) and nothing else. When the byte size does not fit the size type it wraps.",
  "all element types, allocations, views and byte positions",
  "a test has one element type and one array; the aliasing claim is about every byte position",
  ["MemoryView.h:60", "MemoryView.h:85-94"])
p("C72", "Two storage objects over the same memory agree",
  "After any calls on a second PersistentStorage object opened over the same memory, the first object still answers get without undefined behaviour and with the current value of every record; overwriting through the first object is seen by the second; a record acknowledged to one object is not lost by a set through the other.",
  "all reachable storages, all call sequences, all names and objects",
  "the test uses two objects for one fixed sequence; interleavings of two objects are not explored",
  ["PersistentStorage.h:43-139", "PersistentStorage.cpp:7-17"])
p("C73", "The converter's configuration reflects the command line",
  "For every list of settings, in any order and spelling (attached or separate option argument) and with other arguments in between, the configuration is the one the settings describe: the last value of each option, its default otherwise, the encoding in capitals, the last character 0x7E exactly for ASCII in any case. Malformed numbers are reported and do not crash the program.",
  "all argument lists",
  "the converter has no tests at all; argument lists are unbounded",
  ["gfx-font-converter/FontConverterConfig.cpp:7-54", "gfx-font-converter/FontConverterConfig.h:20-28"])
p("C74", "The converter program writes the rendered font and reports failures",
  "For every font, size, resolution and single-byte encoding, when everything the program depends on works, the files written hold a font which draws each character as FreeType renders it (binary) or declare that font to a compiler (header). The exit status is 0 exactly when everything was done, whatever fails.",
  "all argument lists, all behaviours of FreeType, iconv and the file system",
  "failures of the environment are not injected by tests; the round trip through the library is never tested",
  ["gfx-font-converter/main.cpp:255-373", "gfx-font-converter/FreeTypeLibrary.cpp", "gfx-font-converter/FreeTypeFace.cpp"])
p("C75", "A UART port has the settings asked for",
  "After any sequence of successful initialisations of any ports, each port asked for has an installed driver and the pins, rate, data bits, parity, stop bits, flow control and buffer of the requests for it, other ports are untouched, and init reports failures; sendBlocking hands the data over once and waits for the end of the transmission iff something was written; receiveBlocking stores exactly what it reports and waits at most the time-out.",
  "all sequences of requests, all driver behaviours, all data and time-outs",
  "vendor driver failures and initialisation sequences are not exercised by any test",
  ["esp32-esp-idf/SimpleUartDevice.cpp:25-77", "esp32-esp-idf/SimpleUartDevice.h:12-43"])
p("C76", "I2C bus set-up, reset and probing",
  "init installs the driver only after the configuration was accepted and returns true iff both succeeded; resetBus is the general call 0x06 on both platforms; testAddress is one transaction of start, address for writing with acknowledge check and stop, returns its result, and never leaks a command link; a scan finds exactly the devices present.",
  "all driver behaviours, all addresses and address lists",
  "allocation failures and driver failures are not exercised by any test",
  ["esp32-esp-idf/I2CBus.cpp:4-35", "arduino/I2CBus.cpp:3-9"])
p("C77", "Clock readings measure elapsed time",
  "The difference of two readings of getMicrosecondTicks is the time elapsed between them and later readings are not smaller, on both platforms; the millisecond counters of both platforms agree.",
  "all pairs of times below 2^63 microseconds",
  "wraps of the counters occur after 71 minutes and 49 days",
  ["arduino/Delays.cpp:10-23", "esp32-esp-idf/Delays.cpp:13-34", "Delays.h"])
p("C78", "SPI devices behave the same on both platforms",
  "Connected to the same device, sendAndReceive puts the same bytes on the wire, delivers the same answers and returns true on both platforms, for every length; on the Arduino platform also with one buffer for both directions.",
  "all devices, data and lengths, initialised devices, drivers which accept everything",
  "a peer depending on all bytes seen and lengths beyond 4092 are not exercised by any test",
  ["SpiDevice.h", "arduino/SpiDevice.cpp", "esp32-esp-idf/SpiDevice.cpp", "arduino/SpiBus.cpp:60-107", "esp32-esp-idf/SpiBus.cpp:9-42"])
p("C79", "The tests' image comparison is exact",
  "comparePBM succeeds exactly when the file holds the given image with the given dimensions; readPBM delivers the pixels of the file, packed in order, without undefined behaviour; a file written by writePBM or writePBMBinary is read back as the same image.",
  "all files, images and dimensions",
  "this is the oracle of the drawing tests; it is itself untested, in particular for widths which are not a multiple of eight and for damaged files",
  ["tests/PBMHelper.cpp:10-161"])
p("C80", "A storage opened over arbitrary memory is a map",
  "A storage opened with init=false over a region holding arbitrary bytes answers every later history of get and set calls like a bounded map whose initial contents are the entries found in the region: acknowledged objects are read back, other objects keep their values, a set is refused only for lack of space. Reopening loses and changes no readable object. (False of the code when the last entry found is one byte long: then the next new object, if no larger than 249 bytes, is acknowledged and cannot be read - proved for every such region.)",
  "every byte content and size of the region, every later history",
  "2^(8n) memory images times all histories; the tests only open regions written by the storage itself", PS)
p("C81", "A stored object survives everything but being overwritten",
  "Whatever bytes the region held when it was opened and whatever happens afterwards - calls of set with any names and objects, reopenings, power losses during set after which any of its bytes have reached memory in any order - an object that could be read after opening, or was acknowledged by a storage in use, can be read for ever. It has not changed unless a call wrote that very object; then each of its bytes is the old one or one of those written.",
  "every initial memory content, every history of calls, reopenings and power losses, every subset of the interrupted writes",
  "unbounded histories times all subsets of interrupted writes", PS)
p("C82", "The text buffer is described completely by its text and settings",
  "For every sequence of operations on a BufferedOut - texts, characters, integers, single bytes, byte arrays, floats, settings, clear - the text and the settings afterwards are determined by those before: texts are cut at the capacity, integers are printed wholly or not at all, padded or cut to the pending width which then is used up, bytes are printed as pairs of hexadecimal digits. The sequence has undefined behaviour exactly if it reaches a padded integer whose digits fit but whose columns do not, a single byte with less than two characters left, or a float that is no number or has an integer part outside of int; no other operation leaves the bounds of the buffer.",
  "every buffer size and content, every sequence of operations with every argument",
  "unbounded sequences of interacting settings; the undefined cases are silent memory corruption in a test", BO)
p("C83", "A picture shows the last command covering each pixel",
  "After any sequence of drawing commands on a canvas - choosing colours, changing the rotation, clearing, pixels, lines, rectangles, circles, discs and texts, also partly or wholly off screen - every pixel of the screen shows the value of the last command that covers it in the rotation it was drawn with, or what it showed before; nothing drawn before a clear can be seen afterwards.",
  "every geometry and rotation, every sequence of commands with arguments of screen scale, every pixel",
  "unbounded sequences of commands times rotations times pixels", CV)
p("C84", "Consecutive packet receptions on ESP32 share out the byte stream",
  "Whatever the clock and the driver do, consecutive calls of Receive, ReceiveUntil and ReceiveBetween with any sizes, delimiters and time-outs share out the bytes delivered by the driver in order (bulk reads of Receive which fail excluded, C66): no byte is lost between two calls or delivered twice, and ReceiveBetween discards only bytes before its start byte. Without a time-out, packets that fit the buffer are returned one by one, each with its terminator, however their bytes are spread over the reads.",
  "every driver and clock behaviour, every sequence of calls, every stream of packets",
  "unbounded sequences of calls times arrival patterns", ["esp32-esp-idf/PacketUart.cpp: PacketUart::ReceiveUntil", "esp32-esp-idf/PacketUart.cpp: PacketUart::ReceiveBetween"])
p("C85", "Serial output is described completely by the messages printed",
  "For every program of SerialOut operators (C strings, characters, bytes, integers, floats, byte views, precision settings, end, endl) and every buffer of 1 to 65535 characters: the packets handed to the UART are exactly the message texts in order, each cut to the buffer as described for the text buffer, a line's newline following in the same packet or, if the buffer is full, in a packet of its own; settings do not outlive their message; and behaviour is undefined exactly when an operation is undefined for the text buffer in the state it is reached in.",
  "all programs of operators and operands, all buffer sizes, all contents of memory",
  "unbounded sequences of operators times buffer states", ["SerialOut.h: SerialOut", "arduino/SerialOut.cpp: SerialOut::flush", "esp32-esp-idf/SerialOut.cpp: SerialOut::flush"])
p("C86", "Consecutive packet receptions on Arduino share out what is read",
  "Whatever the clock and the device do, consecutive calls of Receive, ReceiveUntil and ReceiveBetween with any admissible sizes, delimiters and time-outs share out the outcomes of the single-byte reads in order: no byte is lost between two calls or delivered twice, ReceiveBetween discards only bytes before its start byte, and a packet ends without its terminator having been read only when the buffer is full or the stream pauses. Receive reads the clock before each read and returns as soon as, and not before, the buffer is full or the clock has reached the deadline; ReceiveBetween waits for its start byte exactly until the deadline, or without looking at the clock if the time-out is zero.",
  "every device and clock behaviour, every sequence of calls",
  "unbounded sequences of calls times arrival patterns", ["arduino/PacketUart.cpp: PacketUart::Receive", "arduino/PacketUart.cpp: PacketUart::ReceiveUntil", "arduino/PacketUart.cpp: PacketUart::ReceiveBetween"])
p("C87", "What is printed reaches the UART driver, and nothing else happens to it",
  "On both platforms a program printing through SerialOut hands exactly the packets of C85 to the driver of its port, complete and in order, and leaves the device otherwise as it was: no other settings, the same time-out, and the same bytes waiting to be read; if the driver accepts what it is given, the bytes on the wire are the packets one after the other, and if it does not, the program notices. The packets are the same on both platforms.",
  "every program of operators, every driver behaviour, every state of the device",
  "unbounded programs times driver answers; losing received bytes needs traffic in both directions at once", ["SerialOut.h: SerialOut", "arduino/SerialOut.cpp: SerialOut::flush", "esp32-esp-idf/SerialOut.cpp: SerialOut::flush", "arduino/PacketUart.cpp: PacketUart::Send", "esp32-esp-idf/PacketUart.cpp: PacketUart::Send", "esp32-esp-idf/SimpleUartDevice.cpp: SimpleUartDevice::sendBlocking"])
p("C88", "A pin reads back as what it is",
  "After any calls of init, set and reset on any pins, check returns the level of the last set or reset for a pin whose last successful initialisation was as an output, and the level outside (or of the pull resistor if nothing drives the pin) for one initialised as an input; calls on other pins do not matter.",
  "every sequence of calls on every pin, every driver answer, every initial state of the pads and every world outside", "unbounded call sequences, hardware behaviour", ["arduino/GpioDigitalPin.cpp: GpioDigitalPin::check", "esp32-esp-idf/GpioDigitalPin.cpp: GpioDigitalPin::check"])
p("C89", "Bytes on a shared SPI port are clocked with the settings of their sender",
  "When several SpiBus objects with different settings use one port on Arduino, every byte sent by transfer, sendByte or sendBytes reaches the wire once, in order, and with the settings of the object it was sent through.",
  "every program of calls on any number of objects, all data and lengths, all settings, every peer", "needs a bus analyser, and two devices with different clocks used in every order", ["arduino/SpiBus.h:12-31", "arduino/SpiBus.cpp:89-107"])

p("C90", "Portable packet reception",
  "PacketUart is one interface with two implementations: a program of Receive, ReceiveUntil and ReceiveBetween calls fed with the same bytes delivers the same packets, and leaves the same bytes unread, on ESP32 and on Arduino.",
  "all programs of messages of any length with any bytes before the start byte, all sizes, time-outs and clocks", "the tests run on a host and see neither implementation; comparing them needs both boards and every packet length", ["PacketUart.h:11-21", "esp32-esp-idf/PacketUart.cpp:10-76", "arduino/PacketUart.cpp:11-85"])
p("C91", "Devices sharing an SPI bus behave as if alone",
  "When several devices share one SPI bus, each with a chip select pin of its own, and their drivers access them in turn, every access in the scope of a ChipSelector of the device's pin, then every driver receives the same answers and every device sees the same frames of bytes as when it were the only one on the bus; a device sees one frame per access. This holds from the moment when all pins are high; a device whose pin is low (never driven high since the reset, or selected by an outer scope) sees the bytes meant for others. Drivers which do not use receiveSync do the same on Arduino and on ESP32 in full duplex mode.",
  "any number of devices with any behaviour, any drivers whose calls may depend on all they have received, any order of their turns, both platforms and both duplex modes", "needs several devices on one bus and every interleaving of their accesses", ["GpioDigitalPin.h:35-50", "SpiDevice.h:10-24", "arduino/SpiDevice.cpp:7-20", "esp32-esp-idf/SpiDevice.cpp:7-20", "arduino/SpiBus.cpp:89-107", "esp32-esp-idf/SpiBus.cpp:9-42"])
p("C92", "Portable I2C programs",
  "I2CDevice is one interface with two implementations: a program of sendSync, receiveSync and sendThenReceive calls, talking to the same devices, gets the same results and sends the same messages on ESP32 and on Arduino. (False of the code for messages longer than the buffer of TwoWire: the device is sent the beginning of the message and the call reports failure; reads fail although the device was read. Exact condition proved.)",
  "all programs whose calls may depend on earlier results, all devices, addresses, data and lengths, all buffer sizes of TwoWire", "the tests run on a host and see neither implementation", ["I2CDevice.h:10-34", "arduino/I2CDevice.cpp:4-22", "esp32-esp-idf/I2CDevice.cpp:7-15"])

p("C93", "One font in two formats",
  "The two output formats of the converter describe the same font: the header, compiled, declares exactly the bitmap bytes and glyph descriptors found in the binary files, together with the height of the font, and it draws the characters as FreeType renders them. (Partial: the converter reports success for fonts whose header the compiler refuses. Exact condition proved.)",
  "all command lines, fonts, rasters and metrics", "the tests do not run the converter, and no test compiles a generated header", ["gfx-font-converter/main.cpp:27-250", "gfx-font-converter/main.cpp:262-360", "graphics/GFXFontsAdapter.h:9-26", "graphics/EmbeddedFonts.cpp:9-17"])

p("C94", "The ESP32 SPI bus object is predictable under every sequence of calls",
  "For every sequence of init, transfer and release calls on a new SpiBus object and all answers of the driver: no call hangs; at most one init returns true; a transfer of something succeeds or reaches the wire only between that init and the next release, and is refused without undefined behaviour before; undefined behaviour arises only after a release which removed the device (C58).",
  "every sequence of calls, every answer of the driver to each of them, all data",
  "sequences such as a transfer after a failed init or an init after a failed release need failing hardware",
  ["esp32-esp-idf/SpiBus.cpp:9-95", "esp32-esp-idf/SpiBus.h:20-30"])
p("C95", "The converter gives back everything it obtains",
  "However the converter ends, by success, a refused file, an unavailable encoding or any failure of FreeType: every FreeType library, face and glyph, iconv descriptor and file it has obtained is given back exactly once, a face and a glyph before their library, and none is used before it is obtained or after it is given back. (Nothing is claimed of runs with undefined behaviour, C74.)",
  "all command lines, fonts and answers of FreeType, iconv and the file system", "failures in the middle of the program have to be provoked one by one, and a leak or a use after release is not visible in the output",
  ["gfx-font-converter/main.cpp:112-373", "gfx-font-converter/FreeTypeLibrary.cpp:10-30", "gfx-font-converter/FreeTypeFace.cpp:9-37", "gfx-font-converter/FreeTypeGlyph.h:6-14", "gfx-font-converter/EncodingConverter.cpp:5-21"])

p("C96", "Portable pin programs",
  "A program using GpioDigitalPin behaves the same on Arduino and ESP-IDF: every call returns the same, and all pins have the same level after every call, whatever is connected to the pins. (Partial: false for programs whose init is refused on ESP32, and for programs reading an output which is high; the exact condition is proved.)",
  "all programs of init, set, reset and check calls which may depend on earlier results, all states of the pads, a world changing from call to call", "there is no test of the two implementations against each other, and programs are unbounded",
  ["esp32-esp-idf/GpioDigitalPin.cpp:15-45", "arduino/GpioDigitalPin.cpp:9-37", "GpioDigitalPin.h:9-30"])

p("C97", "Lines arrive",
  "Every line printed with endl through SerialOut on one device is received as one packet, text and newline, by one call of ReceiveUntil for the newline on another device, in order and with nothing left over, whatever the platforms of the two; labelled ints arrive with their exact decimal text.",
  "all programs printing lines of strings, numbers, bytes and floats without undefined behaviour, all buffer sizes, all line lengths which leave two bytes of the receiver's buffer, drivers accepting what they are given, all clocks which are quick enough", "needs two devices, unbounded numbers of lines and the formatting, buffering and receiving code together",
  ["SerialOut.h:18-106", "BufferedOut.h:25-77", "esp32-esp-idf/SerialOut.cpp:4-9", "arduino/SerialOut.cpp:4-9", "esp32-esp-idf/PacketUart.cpp:15-38", "arduino/PacketUart.cpp:31-56"])

p("C98", "Converter messages",
  "The font converter tells its user what it does: with exit status 0 the standard error stream is empty and the standard output announces exactly the files written, in order; otherwise either only the usage is printed, or there is exactly one error message, which is true, and the files opened before are announced.",
  "all command lines, all answers of the file system, FreeType and iconv, both output formats", "error paths of FreeType, iconv and the file system are not exercised by any test, and no test captures the output",
  ["gfx-font-converter/main.cpp:209-253", "gfx-font-converter/main.cpp:255-373", "gfx-font-converter/EncodingConverter.cpp:5-21", "gfx-font-converter/FreeTypeLibrary.cpp:10-31", "gfx-font-converter/FreeTypeFace.cpp:9-37", "gfx-font-converter/FreeTypeGlyph.cpp:5-12"])

p("C99", "Storage format",
  "After any history of calls on an initialised storage the region is byte for byte the image of the history: the records in the order in which they were first stored, each as a little-endian 16-bit length (6 + object size), four name characters (cut or NUL-filled) and the object, then zeros. Only set calls matter. Conversely a region filled with such an image by other means opens as those records, and different records have different images.",
  "all histories, names of any length, all objects which fit the size field, all earlier contents, all region sizes below 2^32 - 2^16", "tests read values back through the class and never look at the bytes, so a change of format that breaks stored data of earlier versions goes unnoticed",
  ["PersistentStorage.h:50-74", "PersistentStorage.h:93-105", "PersistentStorage.h:124-137", "PersistentStorage.cpp:3-20"])

p("C100", "From a font file to a text",
  "A text of printable characters, drawn with drawStringAt in a font made by the converter (either format), shows exactly the pixels of the characters as FreeType renders them from the font file, each with the pen moved by the whole-pixel advances of the characters before, in every rotation. (Partial: a text containing the last character of the font is undefined behaviour; proved for every such text.)",
  "all font files, sizes, resolutions and single-byte encodings; all texts, positions, canvases and rotations", "the converter and the canvas are separate programs; no test runs both",
  ["gfx-font-converter/main.cpp:255-373", "graphics/Canvas.h:63-69 drawStringAt", "graphics/Canvas.cpp:5-29", "graphics/EmbeddedFont.cpp:8-47"])

p("C101", "What the drawing tests decide",
  "A drawing test of the suite - a new monochrome frame buffer, any program of drawing commands in any rotations, checkBuffer against a file - passes exactly if the file is a PBM image of the dimensions of the frame buffer in which every pixel has the value of the last command covering it; no wrong pixel is overlooked and no right picture refused.",
  "all drawing programs, all files, all monochrome frame buffers up to 2^28 pixels in each direction", "the tests cannot test themselves; they compare seven pictures",
  ["tests/MonochromeFrameBufferTest.cpp:58-79", "tests/PBMHelper.cpp:10-77", "graphics/Canvas.h:29-69"])

p("C102", "Circles are closed curves",
  "The outline drawn by drawCircle has no gaps - between any two of its pixels there is a way along the outline - and it is tight: a flood fill from the centre stays inside, and together with the outline it fills exactly the pixels of the filled circle.",
  "all centres and all radii from 1 to 2^28, all canvases", "the tests draw one circle of one radius",
  ["graphics/Canvas.cpp:125-180"])

p("C103", "Wear of the storage",
  "After any history of calls on an initialised storage, each byte of a record's length and name has been written exactly once since the initialisation, each byte of its object exactly as often as the record was stored, and no other byte at all; get, opening again and refused set calls write nothing.",
  "all histories, names of any length, all objects which fit the size field, every byte of the region",
  "counting writes to every byte needs instrumented memory and every history; a needless write is invisible in the contents", ["PersistentStorage.h:50-74", "PersistentStorage.cpp:3-20"])

p("C104","Delays measured with the library's clock",
"On ESP32 any sequence of delayMicroseconds calls, measured by reading getMicrosecondTicks before and after, takes at least the sum of the times asked for, and at most twice the time between two readings of the clock per call, and once more, longer; measured with getMillisecondTicks it takes at least the whole milliseconds asked for.",
"all sequences of delays, all clock behaviours below 2^63 microseconds, all bounds on the time between readings",
"clock schedules and sequences of calls",
["esp32-esp-idf/Delays.cpp:13-34"])
p("C105","How often a pixel is written",
"The frame buffer's drawPixel is called exactly once for each on-screen pixel of a line or filled rectangle, once for each of the four sides a pixel of a rectangle lies on (corners twice), and once for each pixel of a circle, but twice for the four straight left, right, above and below of the centre (four times for the only pixel of radius 0). For a filled circle it is called in addition once - twice in the row of the centre - for each pixel of the outline which the pixel's row has on its side, at its place or further out. A line computes one pixel per step of its longer extent, a circle at most 8r+4 pixels, a filled rectangle none outside of the screen. In texts it is called once for each character which has a dark pixel there.",
"all shapes of screen scale (radii not negative), all texts and fonts, all positions and rotations",
"a pixel written twice looks like one written once",
["graphics/Canvas.cpp:5-158", "graphics/Canvas.h:84-90"])
p("C106","What fits, and in which order",
"Objects with pairwise different (name, size) can all be stored in a fresh storage exactly if the sum of their sizes plus six bytes for each is at most the capacity, whatever the order; then the order of storing them has no influence on any later answer. Storing an object which is stored already is acknowledged and changes no byte, and of several values stored one after the other under one name only the last remains, byte for byte as if it had been stored alone.",
"all sets of objects, all orders, all later histories, all states",
"permutations of histories",
["PersistentStorage.h:50-87", "PersistentStorage.h:124-137"])
p("C107","What is written can be read",
"Two texts written in the shipped font (without '~') at the same place of a screen that has no dot of the pen's colour, with room for them, look the same exactly if they are the same but for blanks at the end (characters outside of the font counting as blanks). Hence, whatever was on the screen, after clearing it with another colour different numbers printed with BufferedOut behind the same text give different pictures.",
"all texts, all positions with room, all canvases and rotations, all contents of the screen, all 32-bit numbers",
"pairs of texts; overlapping glyphs",
["graphics/Canvas.cpp:5-30", "graphics/Canvas.h:63-69 drawStringAt", "graphics/EmbeddedFont.cpp", "graphics/GFXFonts/FreeSans15pt7b.h", "graphics/SimpleFrameBuffer.h:19-28"])
p("C108","Printed floats keep their order",
"Of two finite floats (integer parts in the range of int) printed with the same precision into a buffer with enough room the smaller one is never printed as the larger number, and if they differ by a little more than a unit of the last decimal it is printed as the smaller number. A negative float is printed as a minus sign followed by what is printed for its absolute value.",
"all pairs of floats, all precisions, all buffers with room",
"rounding in every step of the digit loop",
["BufferedOut.cpp:9-27", "BufferedOut.cpp:139-143"])
p("C109","Lines have the pixels nearest to the ideal line, in every rotation of the screen",
"drawLine paints, for every coordinate of the longer direction between its ends, exactly the pixel nearest to the ideal line, as far as it is on the screen; which pixels these are - and with them the picture of a whole program - does not depend on the rotation of the screen. Moving both ends moves the pixels.",
"all ends up to 2^28, all canvases and rotations",
"ties between two equally near pixels occur only for certain slopes; the tests draw one diagonal",
["graphics/Canvas.cpp:31-80", "graphics/Canvas.h:86-92"])
p("C110","The order of drawing matters only where different colours overlap",
"Shapes and texts of which any two have the same colour or no pixel of the screen in common leave the same memory of the frame buffer in whatever order and however often they are drawn, in whatever rotations; two drawings overlapping in different colours leave different ones.",
"all sets of drawings, all orders and repetitions, all canvases",
"orders of an unbounded number of drawings",
["graphics/Canvas.cpp:5-180", "graphics/Canvas.h:29-69", "graphics/SimpleFrameBuffer.h:19-88"])
p("C111","Moved drawings make moved pictures",
"A shape or a text moved by any distance has exactly the moved pixels, as far as they are on the screen; the picture of a program of drawings, colours and clearing with all coordinates moved is the moved picture wherever both positions are on the screen.",
"all programs, all distances, all canvases and rotations",
"clipping at the borders times programs",
["graphics/Canvas.cpp:5-180", "graphics/Canvas.h:29-69"])
p("C112","7-bit fonts mean what they mean to the Adafruit GFX library",
"README: for the 7-bit charset the fonts are compatible with the Adafruit GFX library. A text drawn with a 7-bit font has exactly the pixels and the advance which the drawing procedure of that library gives it, clipped to the screen, in every rotation; and the 7-bit font which the converter makes of rendered characters is drawn by that procedure as rendered.",
"all 7-bit fonts, all texts, all positions of screen scale, all canvases and rotations; all rendered characters",
"the other library is not part of the tests",
["README.md:85-91", "graphics/Canvas.cpp:5-29", "graphics/Canvas.h:63-69 drawStringAt", "graphics/EmbeddedFont.cpp:7-34", "gfx-font-converter/main.cpp:283-330"])
p("C113","The options documented in the README",
"The converter accepts the options of the README in both documented spellings (-f or --font, -s or --size, -d or --dpi, -e or --encoding, -o or --output), with the documented defaults (resolution 141, ASCII, header format, the directory of the executable). (False of the code for the long spellings: getopt knows the short ones only. Any long option makes the program print its usage or, for --size and --dpi, end with an uncaught exception; exact condition proved.)",
"all command lines of documented options in any order and spelling, with other arguments between them",
"the converter has no tests",
["README.md:85-98", "gfx-font-converter/FontConverterConfig.cpp:7-53", "gfx-font-converter/main.cpp:255-275"])
p("C114","How long a reception takes",
"Whatever arrives on the wire, a receiving call returns within its time-out, up to the granularity of the clock and the time taken by its own operations; it gives up no sooner than that; and a packet which has arrived in time is returned promptly. (True of ReceiveUntil on ESP32 and of Receive on Arduino. False otherwise: ReceiveBetween on ESP32 waits anew after every byte it skips, without end if such bytes keep coming, and returns a late start byte alone; ReceiveUntil and ReceiveBetween on Arduino wait anew for every byte they store; and when the millisecond counter of 32 bits starts anew, ReceiveUntil on ESP32 gives up at once or waits for 49 days.)",
"all wires (bytes with times of arrival), all durations of the operations, all starting times, buffers and time-outs",
"tests do not run with clocks and wires, and neither for 49 days nor on a noisy line",
["esp32-esp-idf/PacketUart.cpp:20-76", "arduino/PacketUart.cpp:11-29", "arduino/PacketUart.cpp:44-85", "esp32-esp-idf/Delays.cpp:13-16", "esp32-esp-idf/SimpleUartDevice.cpp:73-77"])
p("C115","Portable analog programs",
  "A program reading analog pins one after the other, whose later reads may depend on earlier values, reads the same values on Arduino and on ESP32. (False of the code: the ESP32 implementation takes a converter unit for every read and never gives it back. Proved: with a driver that never fails by itself the readings agree exactly if every pin read is connected to one of the two units and no two reads use the same unit; at most two reads ever succeed, whatever the driver does; reading one pin twice is never portable.)",
  "every channel map, program, history of pin levels, and for the bound every driver behaviour and earlier history", "the first read of a fresh device works; programs and driver histories are infinite",
  ["arduino/AnalogPin.cpp: AnalogPin::singleRead","esp32-esp-idf/AnalogPin.cpp: AnalogPin::singleRead, singleReadADC"])
p("C116","Like a string stream",
  "A BufferedOut shows the text a std::ostringstream would show after the same insertions (README: it behaves like simplified std::string_stream). (False of the code in general. Proved: text and settings stay those of the stream during every program whose operations are all alike, and for texts, integers, single bytes, settings and floats with at most 21 binary places - all floats from 4 on - an operation does what the stream does if and only if it is alike: no width pending for texts and floats, integers not longer than the pending width, floats which the stream rounds down and which are not negative with integer part 0, everything fitting the buffer; single bytes are never alike. With up to seven decimals every float is printed as the number the stream prints or as the one a unit of the last decimal nearer to zero, apart from the sign of values between -1 and 0; with eight decimals that is false.)",
  "every buffer, content, setting and sequence of operations, all floats", "tests compare a few texts; the number of programs and float values is unbounded",
  ["README.md:40-51","BufferedOut.h: operator<<, precision, width, fill, clear","BufferedOut.cpp: operator<<, addPadding, adjustPos, toChars"])
p("C117","Pictures reach the display",
  "The image of a frame buffer, sent with SpiDevice::sendSync while the display is selected, arrives there completely: the display gets one frame with the bytes of the image, whose pixels are what the drawing program drew last at each place, and the other devices on the bus see nothing. (False of the code for images of 65536 bytes and more: the length of a call has 16 bits, so only the beginning is sent and success is reported; sent in shorter pieces any image arrives.)",
  "every drawing program, geometry of depth 1, 4, 8, 16 or 24, bus population, history and platform", "tests look at the memory of small frame buffers; displays, buses and large images are not tested",
  ["graphics/SimpleFrameBuffer.h: getImage","SpiDevice.h: sendSync","arduino/SpiDevice.cpp: sendSync","esp32-esp-idf/SpiDevice.cpp: sendSync","GpioDigitalPin.h: ChipSelector","MemoryView.h: subspan"])
p("C118","A thermometer",
"The program of the README's introduction - read a two-byte register of a sensor with I2CDevice::sendThenReceive, convert it with changeEndianess, print it behind a label with BufferedOut, draw the text on a cleared frame buffer and send the image to a display on a shared SPI bus, over and over - works on both platforms: there is a picture for each of the 65536 values, showing the label and the number, no two of them alike, and the display gets exactly the pictures of the values measured, in their order; when the sensor does not answer nothing is sent and the program knows; other devices on both buses notice nothing.",
"all sensors (answers depending on all messages before), all numbers of measurements, Arduino and ESP32 for either bus, all screens with room for the text, all rotations, labels, colours, earlier contents of memory and screen",
"tests run each part alone, on a PC, and no test involves hardware or more than one part of the library",
["README.md:6","I2CDevice.h:19-22","EndianConversion.h:8-11","BufferedOut.cpp:59-120","graphics/Canvas.h:63-69 drawStringAt","SpiDevice.h:16"])
p("C119","Counting the boots",
"A program which keeps a PersistentStorage in memory that survives deep sleep (wiped when power is switched on, reopened when the device wakes up), and each time it wakes up reads a four-byte counter, stores it increased by one and prints it with SerialOut on an ESP32, reports 1, 2, 3, ... (modulo 2^32), whatever was in the memory at first and whatever the rest of the program stores under other names or sizes; the rest of the program finds its own objects as it left them, as if it had a storage ten bytes smaller for itself. If the device is reset while an existing counter is being overwritten, the counter is afterwards the old or the new one, unless the increase carries to the second byte. If it is reset while the counter is stored for the first time, the next report is 1 or 2 and is kept, given a region of twenty bytes.",
"all contents of the memory, all regions from ten bytes to 2^32 - 2^16, all numbers of boots, all other calls of the storage with names of at most four characters and records fitting the 16-bit size field which leave the counter alone, all serial buffers of 16 to 65535 characters, all UART drivers",
"tests use one storage object in one process; none reopens it after a restart, mixes modules or lets the machine be reset",
["README.md:7","README.md:55-56","PersistentStorage.h:50-87","PersistentStorage.cpp:3-20","SerialOut.h:18-100","esp32-esp-idf/SerialOut.cpp:4-9"])
p("C120","Requests on a serial line are answered",
"A program which over and over waits for a line with ReceiveUntil, acts on it and answers with a line printed through SerialOut on the same device answers every line sent to it, in order, however the bytes of the lines are spread over the times at which the program receives and sends, as long as each line is complete before the program gives up waiting for it. (True on ESP32, where bytes which arrive meanwhile are kept. False on Arduino: each round answers what arrives while it waits, up to its first newline, and everything else is forgotten when the answer is sent; so of two lines sent in one go the second is never answered. To a client which waits for each answer before it sends the next line the two platforms look the same, packet for packet.)",
"all programs (any state, any answers which can be printed), all lines fitting the buffer, all divisions of the bytes between rounds, all buffers and time-outs, all UART drivers",
"tests receive and print in isolation; none lets bytes arrive while something is sent",
["esp32-esp-idf/PacketUart.cpp: ReceiveUntil","arduino/PacketUart.cpp: ReceiveUntil, Send","esp32-esp-idf/PacketUart.cpp: Send","SerialOut.h:18-100"])
p("C121","A key-value store on a serial line",
"A program which keeps a PersistentStorage and serves it on a serial line (a line naming a key and a value of four characters stores it and is answered 1 or 0; a line naming a key is answered with the value in hexadecimal or with a dash; any other line with a question mark) answers each line of its client, in order, as a bounded map would: on ESP32 for every client, on Arduino for every client which waits for each answer before it sends the next line.",
"all sequences of lines fitting the buffer, all names and values of four characters, all sizes of the storage up to 2^32 - 2^16, all output buffers of 8 to 65535 characters, all earlier contents of memory; on ESP32 all divisions of the bytes between rounds which complete each line before the program gives up waiting for it",
"tests use storage, printing and receiving apart from each other, on a PC",
["PersistentStorage.h:50-87","PersistentStorage.cpp:3-20","SerialOut.h:18-100","BufferedOut.cpp:59-120","esp32-esp-idf/PacketUart.cpp: ReceiveUntil","arduino/PacketUart.cpp: ReceiveUntil, Send"])
p("C122","Records of numbers in frames arrive whole or not at all",
"A program which converts the numbers of records with changeEndianess and sends each record between a start byte and an end byte, and a program on another device which calls ReceiveBetween again and again and decodes the packets of the length of a frame: if the two bytes differ, the receiver accepts exactly the records which do not contain the end byte, whole and in order, wherever in a frame it began to listen; a frame which contains the end byte never damages the following one.",
"all layouts of 16-bit, 32-bit and float fields and all values of them (sizes below 65534 bytes), both platforms on either side, unsigned long of 32 or 64 bits on either side, all different start and end bytes, all places in a frame at which the receiver begins, all buffers longer than a frame, all time-outs of at least T ms with clocks which advance by less than T ms during two frames, drivers which accept the frames",
"tests run neither the packet receiver nor two devices",
["EndianConversion.h:8-27","PacketUart.h:17-18","esp32-esp-idf/PacketUart.cpp: ReceiveBetween, Send","arduino/PacketUart.cpp: ReceiveBetween, Send"])
p("C123","Debug logging does not change a program",
"A program whose own statements do not use the port of the log does the same with DEBUG_SERIAL_OUT defined as without, whatever the driver does with what is logged; each DEBUG_LOG puts exactly its own line of at most 128 characters on the wire, in order, independent of what was logged before, if the driver accepts it.",
"all programs (sequences of own statements, which may fail or never end, and log statements), all lines of printable items which are correct for a buffer of 128 characters, all drivers, both platforms",
"no test is compiled with DEBUG_SERIAL_OUT; the claim compares two builds of every program",
["Debug.h:3-12","esp32-esp-idf/SerialDebug.cpp:6-15","arduino/SerialDebug.cpp:6-14","SerialOut.h:18-100"])
p("C124","A value kept in two slots is updated all or nothing",
"A program keeps two copies of a value and a byte which says which one is current; an update writes the other copy and then the byte. Whatever else is done with the storage and whenever power is lost, with any bytes of the interrupted call in memory, everything read is what one variable shows which is replaced at once, where an interrupted update has happened or not. An update never fails. With one copy there is always a power loss which leaves neither value.",
"all values of any size that fits the size field, all histories of updates, reads, other calls, reopenings and power losses (any subset of the bytes of the interrupted call, in any order), all storages in use however full",
"a test cannot cut power after every subset of the bytes of every call in every history",
["PersistentStorage.h:50-87","PersistentStorage.h:124-137","PersistentStorage.cpp:3-20","README.md:55-56"])
p("C125","Deep sleep does not disturb a program",
"A program which loads the data of its drivers from the storage when it wakes up and saves them before it sleeps does the same as one which never sleeps and keeps its data in variables, if the storage has room for the data. Without room some driver always begins anew, and no call tells unless the result of set is looked at.",
"all programs (any function of the data and of inputs, which may be undefined or never end), all sets of drivers with different names or sizes, all contents of the memory at power-on, any number of wake-ups",
"quantifies over all programs; a test runs one program a few times",
["README.md:7","README.md:55-56","PersistentStorage.h:50-87","PersistentStorage.cpp:3-20"])
p("C126","Failing transfers on a shared SPI bus",
"When a transfer to one of several devices on an SPI bus of the ESP32 fails, the call returns false, the device has seen the whole pieces of 4092 bytes before the failing one and nothing else, and its chip select pin goes high at the end of the scope all the same. The other devices and their drivers do not notice: every driver gets the same results and every device sees the same as when it were alone on the bus and met only the failures of its own calls.",
"any number of devices with any behaviour, any drivers whose calls depend on all results including failures, any order of turns, any calls failing in any piece, both duplex modes; different pins, all high at the beginning, an initialised bus",
"needs hardware which fails on request, several devices on one bus and all interleavings",
["esp32-esp-idf/SpiBus.cpp:9-42","esp32-esp-idf/SpiDevice.cpp:7-20","GpioDigitalPin.h:35-50"])
p("C127","Messages are processed exactly once in spite of power losses",
"A device keeps its state and the number of the next message (one byte) in two slots of the storage, processes a message only if it has the expected number, and acknowledges it afterwards; the sender repeats a message until it is acknowledged. Then at any time the state is the one after the messages known to be acknowledged, each processed exactly once and in order, or after these and the next one, whatever acknowledgements are lost, whenever power is lost and whichever bytes of the interrupted call have reached memory, and whatever the rest of the program stores; every message which arrives without a power loss is acknowledged, however full the storage is. Belated copies of up to 254 messages before the current one do no harm; a copy of the 256th message before the expected one is processed again.",
"all states of fewer than 65529 bytes, all functions of message and state, all histories of messages, lost acknowledgements, power losses, restarts and calls for other objects, all storages in use with room for the objects when they are set up",
"needs power losses between any two bytes of memory at any point of any history",
["PersistentStorage.h:50-87","PersistentStorage.h:124-137","PersistentStorage.cpp:3-20","README.md:55-56"])
p("C128","Devices sharing an I2C bus behave as if alone",
"When drivers for devices at different addresses use one I2C bus in turns, every driver gets the same results, failures included, and every device sees the same messages as when it were the only one on the bus, whatever the other devices acknowledge or answer and whatever the other drivers send. (Two drivers for one address do disturb each other.)",
"any number of devices with any behaviour, any drivers whose calls depend on all their results so far, any order of turns, all data and lengths including empty reads, both platforms, any buffer size of TwoWire, any time-out",
"needs several devices on one bus and every interleaving of their accesses",
["I2CDevice.h:10-33","arduino/I2CDevice.cpp:4-22","esp32-esp-idf/I2CDevice.cpp:7-15"])
p("C129","Tasks sharing a storage without a lock",
"PersistentStorage has no lock. If each of several concurrent tasks overwrites only objects of its own, which are present already, and reads no object of another task, then in every interleaving of their memory accesses there is no undefined access and no data race, every task gets the answers it would get alone after a bounded number of its own accesses, its objects are then what they would be if it were alone, and objects without an owner never change. (Without the condition this is false: two concurrent calls of set which add new objects may both report success and lose one of the objects, and reading an object while it is written may give a value never stored.)",
"any number of tasks, any programs of get and set whose calls depend on all answers so far, every schedule at the granularity of single byte accesses, every storage in use (C81), any owned objects and names",
"needs every interleaving of byte accesses of concurrent tasks",
["PersistentStorage.h:19-40","PersistentStorage.h:50-74","PersistentStorage.h:76-87","PersistentStorage.h:124-137"])
p("C130","One task may add objects while the others use theirs",
"As C129, but one of the tasks may also store new objects and look for missing ones, while the others get and set objects which were present from the beginning: in every interleaving of the memory accesses no access is undefined, no byte of the storage is subject to a data race, only the adding task writes free_head_, every task gets the answers it would get alone after a bounded number of its own accesses, its objects are then what they would be alone, objects without owner which were present never change, and once the adding task is done everything which does not belong to others, the new objects included, reads as if it had been alone.",
"any number of tasks, any programs of get and set whose calls depend on all answers so far, every schedule at the granularity of single accesses, every storage in use (C81), any owned objects and names, any new objects below 64 KiB",
"needs every interleaving of an addition (name, size, data, free head) with all other calls",
["PersistentStorage.h:19-40","PersistentStorage.h:50-74","PersistentStorage.h:76-87","PersistentStorage.h:124-137"])
p("C131","The work of a storage call",
"In a storage which was initialised and holds k objects, get of an object of n bytes comes to its end after at most 9 k + 4 + n accesses to the memory region and free_head_, and set after at most 9 k + 11 + n, whatever they look for; both bounds are attained; k is at most free_head_ / 6. In a storage of any origin (foreign contents, power losses) the same bounds hold with the capacity for k.",
"all storages made by initialisation and set, and all storages in use (C81); all names, sizes and contents",
"a worst-case bound over all states and calls",
["PersistentStorage.h:50-74","PersistentStorage.h:76-87","PersistentStorage.h:124-137"])
p("C132","Objects of one size survive power losses",
"If a storage is initialised and then holds objects of one size only, descriptor and object together having at most 256 bytes, then after any number of power losses during set, in whatever order the bytes reach memory, reopening succeeds, the free head is a multiple of the record size, every call is defined, and every acknowledged object can be read for ever, unchanged unless an event wrote that object; a power loss costs at most one record of space, and none if the object was there before. The bound is sharp: with 257 bytes an acknowledged object can be lost.",
"all region sizes, object sizes up to 250 bytes, names, histories of set, reopen and power losses with any subset of the byte writes in any order",
"needs all subsets and orders of byte writes over unbounded histories",
["PersistentStorage.h:50-74","PersistentStorage.h:76-87","PersistentStorage.h:124-137","PersistentStorage.cpp:3-20"])
p("C133","A key-value server keeps acknowledged values across power losses",
"The program of C121 in a device whose power may fail at any time, also while a value is being written: it can always start again; each line it receives is answered; once a value has been acknowledged, every later request for its name is answered with eight hexadecimal digits, those of that value unless the client has sent another one since, and then each byte is one of a value sent. Not guaranteed: that a name for which nothing was sent has no value (phantom).",
"all requests, histories, power losses with any subset of the byte writes in any order, region sizes, both serial back-ends",
"needs power losses inside single writes, and unbounded histories",
["PersistentStorage.h:28-87","PersistentStorage.h:124-137","PersistentStorage.cpp:3-20","PacketUart.h:26-82","BufferedOut.h:25-77"])
p("C134","Tasks drawing on one frame buffer without a lock",
"Several tasks, each with a canvas of its own on one frame buffer, draw shapes and texts in any rotations, in any interleaving of their accesses. If they leave the colour alone and no two of them draw pixels with a byte in common (which is: in the same row and the same byte of the row; from eight bits per pixel on only equal pixels), nothing is undefined, there is no data race, every task comes to its end, its pixels have the colour, and the pixels nobody draws are as before. Without the condition on the bytes a pixel may be lost; if tasks choose colours, a pixel may get the colour of another task.",
"all numbers of tasks, drawing programs, geometries and depths but 2, and schedules of single accesses",
"needs all interleavings of the byte accesses of several tasks; failures depend on rare timings",
["graphics/SimpleFrameBuffer.h:23-88","graphics/Canvas.h:29-90","graphics/Canvas.cpp:5-29"])
p("C135","Tasks printing on one serial port without a lock",
"Several tasks, each with a serial output of its own on the same port, print lines; insertions, the statements of endl and the calls of Send interleave in any way. Nothing is undefined, every task with enough turns comes to its end, and then the packets handed to the port are those each task would have sent alone, each in one piece and those of a task in their order; if no line fills its buffer and the driver accepts what it is given, the wire carries the lines of all tasks, each whole. A line which fills its buffer may be cut from its newline. With one output for two tasks, as SerialDebug is, lines are mixed, and the buffer may be overrun although each line alone has room.",
"all numbers of tasks, lines, buffer sizes, devices and schedules",
"needs all interleavings of the steps of several tasks; failures depend on rare timings",
["SerialOut.h:16-107","esp32-esp-idf/SerialOut.cpp:4-9","esp32-esp-idf/PacketUart.cpp:15-18","esp32-esp-idf/SimpleUartDevice.cpp:63-71","esp32-esp-idf/SerialDebug.cpp:6-15"])
p("C136","Tasks sharing an I2C bus without a lock",
"On ESP32, tasks which use no I2C device in common, their calls of the driver interleaved in any way: every task comes to its end with the result it has alone, each device has seen what it sees from its task alone, and devices nobody uses have seen nothing. A device used by two tasks may give one task the value of the register the other has selected, since sendThenReceive is two calls. On Arduino tasks also disturb each other with different devices: a byte may be sent to the device of another task, and a byte may be read from it, both with success reported.",
"all devices, programs, numbers of tasks and schedules",
"needs all interleavings of the calls of several tasks; failures depend on rare timings",
["I2CDevice.h:17-22","esp32-esp-idf/I2CDevice.cpp:7-15","arduino/I2CDevice.cpp:4-22"])
p("C137","One lock makes tasks safe",
"Tasks take one lock around each use of a shared object, the steps of the uses interleaved in any way with those of waiting and other tasks. Nothing is undefined, there is no deadlock, and at every time the state and the results are those of some of the uses one after the other, without interleaving. For a storage these are the calls on the map of C01, so that no increment of a counter is lost; for a serial output such as SerialDebug every line is on the wire in one piece, also one which fills the buffer; for an I2C bus on ESP32 and Arduino the results and messages are those of C92, whatever devices the tasks have in common; for a frame buffer the picture shows what the tasks have drawn, in any colours and anywhere, one on top of the other.",
"all shared objects, programs, numbers of tasks and schedules",
"needs all interleavings of the steps of several tasks",
["PersistentStorage.h:19-40","PersistentStorage.h:50-74","PersistentStorage.h:76-87","PersistentStorage.h:124-137","graphics/SimpleFrameBuffer.h:29-88","SerialOut.h:16-107","esp32-esp-idf/SerialDebug.cpp:6-15","I2CDevice.h:17-22","esp32-esp-idf/I2CDevice.cpp:7-15","arduino/I2CDevice.cpp:4-22"])
p("C138","Tasks sharing an SPI bus",
"Several tasks use devices on one SPI bus in scopes of ChipSelectors. With a lock around each scope nothing is undefined, there is no deadlock, every device sees whole frames, and results are those of scopes one after the other, each driver talking to its device as if it were alone, on all platforms and for all devices. Without a lock two tasks with a device each may select both devices at once, and a device gets the bytes meant for the other.",
"all devices, programs, numbers of tasks and schedules",
"needs all interleavings of the steps of several tasks",
["GpioDigitalPin.h:35-50","SpiDevice.h:9-23","arduino/SpiDevice.cpp","esp32-esp-idf/SpiDevice.cpp"])
p("C139","Power losses while tasks use a storage under a lock",
"Any number of tasks use a PersistentStorage under one lock and power is lost at any moment of any schedule. The memory can be opened again, and everything the storage held after the finished uses is found, unchanged unless the one use which had begun saves that very object, and then each byte is the old one or one being saved. A one-byte counter incremented by the tasks has counted every finished increment and at most one more. An object which the tasks do not save keeps its value over any number of boots ended by power losses. The lock does not make the save of a longer object atomic: after a power loss it can be neither the old nor the new one.",
"all programs of tasks, schedules, moments of power losses and numbers of boots",
"needs all interleavings and all moments of a power loss",
["PersistentStorage.h:50-74","PersistentStorage.h:76-87","PersistentStorage.h:124-137","PersistentStorage.cpp:3-20"])
p("C140","Tasks share a value in two slots, with power losses",
"Several tasks read and replace a value of any size, kept in two slots of a PersistentStorage with a selecting byte (C124), each time under one lock, and use the storage for other objects too. At any moment of any schedule a power loss leaves the value after the finished uses or after one more, the one which had begun, never a mixture and never a lost update. Over any number of boots ended by power losses a function applied by the tasks has been applied once for every finished use and at most once more for each boot.",
"all programs of tasks, values, schedules, moments of power losses and numbers of boots",
"needs all interleavings and all moments of a power loss",
["PersistentStorage.h:50-74","PersistentStorage.h:76-87","PersistentStorage.h:124-137","PersistentStorage.cpp:3-20"])
p("C141","Exactly which transfers with a size are undefined",
"I2CDevice::sendSync and receiveSync, SpiBus::transfer (both platforms) and SimpleUartDevice::sendBlocking and receiveBlocking can not check the number of bytes they are given. Sending is undefined behaviour exactly when the memory at the pointer is smaller than the number. Receiving is undefined exactly when more bytes arrive than the memory holds: on I2C all requested bytes or none are written, on the serial line those which came, never more than requested. A transfer on SPI is undefined exactly when a pointer which is not null points to fewer bytes than the number. In every other case the call returns.",
"all pointers, sizes, memories and answers of the vendor code",
"a test can not observe undefined behaviour, and covers only some sizes",
["arduino/I2CDevice.cpp:4-22","esp32-esp-idf/I2CDevice.cpp:7-15","arduino/SpiBus.cpp:5-107","esp32-esp-idf/SpiBus.cpp:9-42","esp32-esp-idf/SimpleUartDevice.cpp:63-77"])
p("C142","Drawing over the whole range of int",
"drawPixel, drawLine, drawRectangle, drawFilledRectangle and drawCircle accept any values of type int. Such a call is undefined behaviour exactly when one of a short list of sums and differences (which depends on the rotation) is not an int, or a line ends at the last coordinate of an int, or a circle does not fit into the plane of all int points, or its radius is so big that the error value of the loop is no int at some pixel (x, y) of it, x*x + y*y - r*r + 2*y + 1 > 2^31 - 1; in every other case it returns and has painted exactly the visible pixels of the shape. Filling a rectangle of the greatest size is fine when it begins at the second row and column at the latest, while drawing its outline is undefined already there. A disc may not touch the right border of that plane, a circle may. The smallest radius with such an error value is 715827999, and from 715829428 on there is always one.",
"all canvases, frame buffers, rotations, points, rectangles and radii with members of type int",
"the coordinates are 32 bit, and signed overflow can not be seen by a test",
["graphics/Canvas.cpp:31-189","graphics/Canvas.h:57-60"])
p("C143","Text over the whole range of int",
"drawCharAt and drawStringAt accept any position of type int. Such a call is undefined behaviour exactly when the place of a glyph, a lit pixel of a glyph, the same pixel with the sign the rotation gives it, or its place on the turned screen is not an int, or the pen is not an int behind some character, including the last one; pixels which are not lit do not matter. In every other case the call returns and has painted exactly the visible lit pixels. A character may touch the border of the plane of all int points where the same character as a string is undefined; with the row and all pen positions between -1800000000 and 1800000000 nothing is undefined.",
"all canvases, frame buffers, rotations, fonts with glyphs inside their bitmap, texts of characters found in the font, and positions of type int",
"the coordinates are 32 bit, and signed overflow can not be seen by a test",
["graphics/Canvas.cpp:5-29","graphics/Canvas.h:63-69 drawStringAt"])
p("C144","Pixels outside of the frame buffer",
"SimpleFrameBuffer::drawPixel does not look at the size of the screen: for any position it is either undefined behaviour or draws one pixel of the screen, exactly as if called with its position. It is undefined exactly when posY * width, that plus posX, or that times the depth is not an int, or posX is negative and no multiple of the number of pixels in a byte, or the number of the pixel is not one of the screen. The number is posY * width + posX, but the last pixels before the screen which share a byte belong to its first byte: with 1 or 4 bits for a pixel, drawing at the end of the row above the screen draws on the screen.",
"all sizes and depths which compile, all images, colours and positions",
"undefined behaviour and silent wrong pixels depend on the position, the size and the depth together",
["graphics/SimpleFrameBuffer.h:29-88"])
p("C145","Opening a storage while it is used",
"Opening a storage region with any contents takes at most six accesses to the region for every record found and four more, and this bound is attained. It may be done while other tasks use the region, if each of them writes only existing objects of its own and reads no object of another task: in every schedule the constructor finds the free head it would have found before and would find afterwards, and every other task gets the answers it would get alone. While one other task adds a new object whose record has fewer than 256 bytes or a multiple of 256, and the region holds only zeros behind its last record, the constructor ends after at most six accesses for every byte of the region and six more, and finds the free head without the new object or the free head with it; in the first case an object added later through the new storage object may take the place of the other one. It may not be done while an object with another record is added: for every size of at least 256 whose low byte is at least six there is a schedule in which the constructor of an empty region reads half of the size of the new record and finds a free head inside it, and an object added later through the new storage object then destroys the data of the first.",
"all regions of every size up to 2^32 - 2^16 bytes, all storages in use, all numbers of tasks, all their programs and all schedules of single byte accesses",
"whether the constructor meets a half-written size depends on the schedule",
["PersistentStorage.cpp:3-20"])
here = os.path.dirname(os.path.abspath(__file__))
with open(os.path.join(here, "..", "properties.jsonl"), "w") as f:
    for x in P: f.write(json.dumps(x) + "\n")
print(len(P))
